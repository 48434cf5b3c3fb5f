import Verif.Proofs.FluidOrder

/-
Two runs of transfers that share resources in the same way: only the names of links and cores differ.
-/

namespace NPE
open NPE.Spec NPE.Spec.Fluid

/-- The same schedule. -/
structure Twin (n : Nat) (job job' : Nat → Job) : Prop where
  offset : ∀ i, i < n → (job' i).t.offset = (job i).t.offset
  bytes : ∀ i, i < n → (job' i).t.totalBytes = (job i).t.totalBytes
  after : ∀ i, i < n → (job' i).after = (job i).after
  closed : ∀ i, i < n → ∀ j d, (job i).after = some (j, d) → j < n

/-- The same schedule and the same sharing of resources, on two devices. -/
structure Image (fp : FP) (dev dev' : Device) (n : Nat) (job job' : Nat → Job) : Prop extends Twin n job job' where
  own : ∀ i, i < n → own fp dev' (job' i).t = own fp dev (job i).t
  rate : ∀ i, i < n → (job' i).t.injectionRate = (job i).t.injectionRate
  links : ∀ i, i < n → ∃ φ : Int → Int, (job' i).route = (job i).route.map φ ∧
    ∀ l ∈ (job i).route, ∀ j, j < n → (job' j).route.count (φ l) = (job j).route.count l
  sources : ∀ i j, i < n → j < n →
    leaves dev' (job' i).t.noc (job' i).t.src ((job' j).began 0) = leaves dev (job i).t.noc (job i).t.src ((job j).began 0)
  sinks : ∀ i, i < n → ∃ d d', (job i).t.dst = .unicast d ∧ (job' i).t.dst = .unicast d' ∧
    dev'.getSinkAbsorptionRate d' = dev.getSinkAbsorptionRate d ∧
    ∀ j, j < n → reaches dev' (job' i).t.noc d' ((job' j).began 0) = reaches dev (job i).t.noc d ((job j).began 0)

section
variable {n : Nat} {job job' : Nat → Job}

theorem Twin.begins_eq (F : Twin n job job') {σ σ' : Fluid.State} (h : Agree n id σ σ') {curr i : Nat} (hi : i < n) :
    begins job' curr σ' i = begins job curr σ i := by
  unfold Fluid.begins
  rw [show σ' i = σ i from h i hi, F.offset i hi, F.after i hi]
  cases ha : (job i).after with
  | none => rfl
  | some p =>
    obtain ⟨j, d⟩ := p
    simp only
    rw [show σ' j = σ j from h j (F.closed i hi j d ha)]

theorem Twin.start_eq (F : Twin n job job') {σ σ' : Fluid.State} (h : Agree n id σ σ') (curr : Nat) :
    Agree n id (start job curr σ) (start job' curr σ') := by
  intro i hi
  show start job' curr σ' i = _
  unfold Fluid.start
  rw [F.begins_eq h hi, show σ' i = σ i from h i hi]

theorem Twin.credit_eq (F : Twin n job job') {σ σ' : Fluid.State} (h : Agree n id σ σ') {cpt curr i c : Nat}
    (hi : i < n) : credit job' cpt curr σ' i c = credit job cpt curr σ i c := by
  unfold Fluid.credit
  rw [F.after i hi]
  cases ha : (job i).after with
  | none => rfl
  | some p =>
    obtain ⟨j, d⟩ := p
    simp only
    rw [show σ' j = σ j from h j (F.closed i hi j d ha)]

theorem Twin.advance_eq (F : Twin n job job') {fl : ℚ → ℚ} {cpt curr : Nat} {speed speed' : Speed}
    (hs : ∀ σ σ', Agree n id σ σ' → ∀ i, i < n → speed' curr σ' i = speed curr σ i)
    {σ σ' : Fluid.State} (h : Agree n id σ σ') :
    Agree n id (advance fl job cpt speed curr σ) (advance fl job' cpt speed' curr σ') := by
  intro i hi
  show advance fl job' cpt speed' curr σ' i = _
  unfold Fluid.advance
  rw [show σ' i = σ i from h i hi]
  cases hσ : σ i with
  | waiting => rfl
  | finished c e => rfl
  | active c m =>
    simp only
    rw [F.credit_eq h hi, hs σ σ' h i hi, F.bytes i hi]

theorem Twin.run_eq (F : Twin n job job') {fl : ℚ → ℚ} {cpt : Nat} {speed speed' : Speed}
    (hs : ∀ curr σ σ', Agree n id σ σ' → ∀ i, i < n → speed' curr σ' i = speed curr σ i) (k : Nat) :
    Agree n id (run fl job cpt speed k) (run fl job' cpt speed' k) := by
  induction k with
  | zero => intro i _; rfl
  | succ k ih => exact F.advance_eq (hs _) (F.start_eq ih _)

theorem Twin.readyIn_eq (F : Twin n job job') {σ σ' : Fluid.State}
    (h : Agree n id σ σ') (curr : Nat) : readyIn job' n curr σ' = readyIn job n curr σ := by
  funext i
  unfold readyIn
  by_cases hi : i < n
  · rw [F.after i hi]
    cases ha : (job i).after with
    | none => rfl
    | some p =>
      obtain ⟨j, d⟩ := p
      simp only
      rw [show σ' j = σ j from h j (F.closed i hi j d ha)]
  · simp only [hi, decide_false, Bool.false_and]

variable {fp : FP} {dev dev' : Device}

theorem Image.loadIn_eq (F : Image fp dev dev' n job job') {σ σ' : Fluid.State}
    (h : Agree n id σ σ') (cpt curr : Nat) {order : List Nat} (ho : ∀ j ∈ order, j < n)
    {w w' : TState → Nat} (hw : ∀ j, j < n → w' ((job' j).began 0) = w ((job j).began 0)) :
    loadIn fp dev' job' cpt order w' curr σ' = loadIn fp dev job cpt order w curr σ := by
  unfold loadIn
  congr 1
  rw [List.flatMap_def, List.flatMap_def]
  congr 1
  refine List.map_congr_left fun j hj => ?_
  have hlt := ho j hj
  rw [hw j hlt]
  congr 1
  unfold demand
  rw [show σ' j = σ j from h j hlt, F.own j hlt]

theorem Image.sharedIn_eq (F : Image fp dev dev' n job job') (hm : dev'.multichip = dev.multichip)
    (hbw : dev'.linkBw = dev.linkBw) {σ σ' : Fluid.State}
    (h : Agree n id σ σ') (cpt curr : Nat) {order : Nat → List Nat}
    (ho : ∀ j ∈ order curr, j < n) {i : Nat} (hi : i < n) :
    sharedIn fp dev' job' cpt order curr σ' i = sharedIn fp dev job cpt order curr σ i := by
  obtain ⟨φ, hr, hl⟩ := F.links i hi
  obtain ⟨d, d', hd, hd', ha, hk⟩ := F.sinks i hi
  have e1 : (job' i).route.map (fun l => loadIn fp dev' job' cpt (order curr) (fun u => u.route.count l) curr σ') =
      (job i).route.map fun l => loadIn fp dev job cpt (order curr) (fun u => u.route.count l) curr σ := by
    rw [hr, List.map_map]
    refine List.map_congr_left fun l hlm => ?_
    exact F.loadIn_eq h cpt curr ho (w := fun u => u.route.count l) (w' := fun u => u.route.count (φ l))
      fun j hj => hl l hlm j hj
  have e2 := F.loadIn_eq h cpt curr ho fun j hj => F.sources i j hi hj
  have e3 := F.loadIn_eq h cpt curr ho hk
  unfold sharedIn reduced
  simp only [e1, e2, hd, hd', ha, e3, F.rate i hi, F.own i hi, hm, hbw]

theorem Image.plan_eq (F : Image fp dev dev' n job job') (hm : dev'.multichip = dev.multichip)
    (hbw : dev'.linkBw = dev.linkBw) (cpt : Nat)
    (q0 : List (Nat × Nat)) : ∀ k, Agree n id (plan fp dev job n cpt q0 k).σ (plan fp dev' job' n cpt q0 k).σ ∧
      (plan fp dev' job' n cpt q0 k).queue = (plan fp dev job n cpt q0 k).queue ∧
      (plan fp dev' job' n cpt q0 k).live = (plan fp dev job n cpt q0 k).live := by
  intro k
  induction k with
  | zero => exact ⟨fun _ _ => rfl, rfl, rfl⟩
  | succ k ih =>
    obtain ⟨a, b, c⟩ := ih
    have hp : (plan fp dev' job' n cpt q0 k).picked job' n ((k + 1) * cpt) =
        (plan fp dev job n cpt q0 k).picked job n ((k + 1) * cpt) := by
      unfold Plan.picked
      rw [b, c, F.readyIn_eq a]
    have hlt := picked_lt (job := job) (curr := (k + 1) * cpt) (plan_lt fp dev job n cpt q0 k)
    have hσ : Agree n id (plan fp dev job n cpt q0 (k + 1)).σ (plan fp dev' job' n cpt q0 (k + 1)).σ := by
      refine F.advance_eq (fun σ σ' hA i hi => ?_) (F.start_eq a _)
      rw [hp]
      exact F.sharedIn_eq hm hbw hA cpt _ hlt hi
    refine ⟨hσ, ?_, ?_⟩
    · show List.take _ _ = List.take _ _
      rw [hp]
    · show List.filter _ _ = List.filter _ _
      rw [hp]
      refine List.filter_congr fun i hi => ?_
      have := congrArg Prog.isActive (hσ i (hlt i hi))
      have e : (plan fp dev' job' n cpt q0 (k + 1)).σ = advance fp.f32.fl job' cpt
        (sharedIn fp dev' job' cpt fun _ => ((plan fp dev' job' n cpt q0 k).picked job' n ((k + 1) * cpt)).2.1) ((k + 1) * cpt)
        (Fluid.start job' ((k + 1) * cpt) (plan fp dev' job' n cpt q0 k).σ) := rfl
      rw [e, hp] at this
      exact this

end

/-! ### Initial states -/

/-- Initial states whose transfers, in the same order, share resources in the same way. -/
structure Alike (fp : FP) (dev dev' : Device) (s0 s0' : Sim) : Prop where
  len : s0'.ts.length = s0.ts.length
  same : ∀ (i : Nat) (t t' : TState), s0.ts[i]? = some t → s0'.ts[i]? = some t' →
    t'.params.offset = t.params.offset ∧ t'.params.totalBytes = t.params.totalBytes ∧
    t'.params.injectionRate = t.params.injectionRate ∧ own fp dev' t'.params = own fp dev t.params ∧
    t'.params.groupId = t.params.groupId ∧ t'.params.groupIdx = t.params.groupIdx ∧
    t'.params.groupParent = t.params.groupParent
  delay : ∀ (i j : Nat) (t t' p p' : TState), s0.ts[i]? = some t → s0'.ts[i]? = some t' → HasParent t.params →
    s0.ts[j]? = some p → s0'.ts[j]? = some p' →
    groupDelay fp dev' t'.params p'.params.src.dev = groupDelay fp dev t.params p.params.src.dev
  links : ∀ (i : Nat) (t t' : TState), s0.ts[i]? = some t → s0'.ts[i]? = some t' →
    ∃ φ : Int → Int, t'.route = t.route.map φ ∧
      ∀ l ∈ t.route, ∀ (j : Nat) (u u' : TState), s0.ts[j]? = some u → s0'.ts[j]? = some u' →
        u'.route.count (φ l) = u.route.count l
  sources : ∀ (i j : Nat) (t t' u u' : TState), s0.ts[i]? = some t → s0'.ts[i]? = some t' →
    s0.ts[j]? = some u → s0'.ts[j]? = some u' →
    ((u'.params.noc = t'.params.noc ∧ SameCore dev' u'.params.src t'.params.src) ↔
      (u.params.noc = t.params.noc ∧ SameCore dev u.params.src t.params.src))
  sinks : ∀ (i : Nat) (t t' : TState), s0.ts[i]? = some t → s0'.ts[i]? = some t' →
    ∃ d d', t.params.dst = .unicast d ∧ t'.params.dst = .unicast d' ∧
      dev'.getSinkAbsorptionRate d' = dev.getSinkAbsorptionRate d ∧
      ∀ (j : Nat) (u u' : TState) (e e' : Coord), s0.ts[j]? = some u → s0'.ts[j]? = some u' →
        u.params.dst = .unicast e → u'.params.dst = .unicast e' →
        ((u'.params.noc = t'.params.noc ∧ SameCore dev' e' d') ↔ (u.params.noc = t.params.noc ∧ SameCore dev e d))
  lanes : ∀ (i j : Nat) (t t' u u' : TState), s0.ts[i]? = some t → s0'.ts[i]? = some t' →
    s0.ts[j]? = some u → s0'.ts[j]? = some u' → (SameLane dev' t' u' ↔ SameLane dev t u)

section
variable {fp : FP} {dev dev' : Device} {ho ho' : HashOrder} {wl wl' : Workload} {s0 s0' : Sim}

theorem Alike.at (P : Alike fp dev dev' s0 s0') {i : Nat} {t : TState} (h : s0.ts[i]? = some t) :
    ∃ t', s0'.ts[i]? = some t' :=
  ⟨_, List.getElem?_eq_getElem (by rw [P.len]; exact (List.getElem?_eq_some_iff.mp h).1)⟩

theorem Alike.back (P : Alike fp dev dev' s0 s0') {i : Nat} {t' : TState} (h : s0'.ts[i]? = some t') :
    ∃ t, s0.ts[i]? = some t :=
  ⟨_, List.getElem?_eq_getElem (by rw [← P.len]; exact (List.getElem?_eq_some_iff.mp h).1)⟩

theorem Alike.map (P : Alike fp dev dev' s0 s0') {ts ts' : List TState} (I : Init0 fp dev ho wl s0 ts)
    (I' : Init0 fp dev' ho' wl' s0' ts') {β : Type} (g : Transfer → β)
    (hg : ∀ t u : Transfer, u.offset = t.offset → u.groupId = t.groupId → u.groupIdx = t.groupIdx →
      u.id = t.id → g u = g t) :
    ts'.map (fun t => g t.params) = ts.map (fun t => g t.params) := by
  have l : s0.ts.length = ts.length := by rw [I.states, tsOf_length]
  have l' : s0'.ts.length = ts'.length := by rw [I'.states, tsOf_length]
  refine List.ext_getElem? fun i => ?_
  rw [List.getElem?_map, List.getElem?_map]
  by_cases hi : i < ts.length
  · have hg0 := List.getElem?_eq_getElem hi
    obtain ⟨t, h1, h2, _⟩ := I.get' hg0
    obtain ⟨t', h3⟩ := P.at h1
    obtain ⟨t0', h5, h6, _⟩ := I'.get h3
    obtain ⟨c1, _, _, _, c2, c3, _⟩ := P.same i t t' h1 h3
    rw [hg0, h5]
    simp only [Option.map_some, Option.some.injEq]
    refine hg _ _ (by rw [h2, h6]; exact c1) (by rw [h2, h6]; exact c2) (by rw [h2, h6]; exact c3) ?_
    rw [I.dense i _ hg0, I'.dense i _ h5]
  · have hp := P.len
    rw [List.getElem?_eq_none (l := ts) (by omega), List.getElem?_eq_none (l := ts') (by omega)]

theorem Alike.queue (P : Alike fp dev dev' s0 s0') (h0 : initSim fp dev ho wl = .ok s0)
    (h0' : initSim fp dev' ho' wl' = .ok s0') : s0'.queue = s0.queue := by
  obtain ⟨ts, I⟩ := init0 h0
  obtain ⟨ts', I'⟩ := init0 h0'
  rw [init_queue h0 I, init_queue h0' I']
  unfold createTransferQueue
  rw [P.map I I' (fun t => (t.offset, t.id.toNat)) fun t u a _ _ e => by rw [a, e]]

theorem Alike.image (P : Alike fp dev dev' s0 s0') (h0 : initSim fp dev ho wl = .ok s0)
    (h0' : initSim fp dev' ho' wl' = .ok s0')
    (hb : ∀ l, (ho.buckets l).Perm l) (hb' : ∀ l, (ho'.buckets l).Perm l)
    {job job' : Nat → Job} (hd : Describes job s0) (hd' : Describes job' s0') :
    Image fp dev dev' s0.ts.length job job' := by
  obtain ⟨ts, I⟩ := init0 h0
  obtain ⟨ts', I'⟩ := init0 h0'
  have hgm : groupMap ts' = groupMap ts := by
    rw [groupMap_eq, groupMap_eq, P.map I I' (fun t => (t.groupId, t.groupIdx, t.id.toNat)) fun t u _ g1 g2 e => by
      rw [g1, g2, e]]
  have devs : ∀ p, devAt ts p = devAt s0.ts p := by
    intro p
    unfold devAt
    cases h1 : ts[p]? with
    | some x =>
      obtain ⟨y, a, b, _⟩ := I.get' h1
      rw [a]
      simp only
      rw [b]
    | none =>
      cases h2 : s0.ts[p]? with
      | none => rfl
      | some y =>
        obtain ⟨x, a, _⟩ := I.get h2
        rw [a] at h1
        cases h1
  have devs' : ∀ p, devAt ts' p = devAt s0'.ts p := by
    intro p
    unfold devAt
    cases h1 : ts'[p]? with
    | some x =>
      obtain ⟨y, a, b, _⟩ := I'.get' h1
      rw [a]
      simp only
      rw [b]
    | none =>
      cases h2 : s0'.ts[p]? with
      | none => rfl
      | some y =>
        obtain ⟨x, a, _⟩ := I'.get h2
        rw [a] at h1
        cases h1
  have mates : ∀ a b, LaneMates (SameLane dev') s0' a b ↔ LaneMates (SameLane dev) s0 a b := by
    intro a b
    constructor
    · rintro ⟨x', y', c1, c2, c3⟩
      obtain ⟨x, d1⟩ := P.back c1
      obtain ⟨y, f1⟩ := P.back c2
      exact ⟨x, y, d1, f1, (P.lanes a b x x' y y' d1 c1 f1 c2).mp c3⟩
    · rintro ⟨x, y, c1, c2, c3⟩
      obtain ⟨x', d1⟩ := P.at c1
      obtain ⟨y', f1⟩ := P.at c2
      exact ⟨x', y', d1, f1, (P.lanes a b x x' y y' c1 d1 c2 f1).mpr c3⟩
  have early : ∀ a b, Earlier s0' a b ↔ Earlier s0 a b := by
    intro a b
    constructor
    · rintro ⟨x', y', c1, c2, c3⟩
      obtain ⟨x, d1⟩ := P.back c1
      obtain ⟨y, f1⟩ := P.back c2
      exact ⟨x, y, d1, f1, by rw [← (P.same _ _ _ d1 c1).1, ← (P.same _ _ _ f1 c2).1]; exact c3⟩
    · rintro ⟨x, y, c1, c2, c3⟩
      obtain ⟨x', d1⟩ := P.at c1
      obtain ⟨y', f1⟩ := P.at c2
      exact ⟨x', y', d1, f1, by rw [(P.same _ _ _ c1 d1).1, (P.same _ _ _ c2 f1).1]; exact c3⟩
  have waits : ∀ i t, s0.ts[i]? = some t → ∀ j d, WaitsFor s0' i j d ↔ WaitsFor s0 i j d := by
    intro i t ht j d
    obtain ⟨t', ht'⟩ := P.at ht
    obtain ⟨_, _, _, _, g1, _, g2⟩ := P.same i t t' ht ht'
    have hpp : HasParent t'.params ↔ HasParent t.params := by unfold HasParent; rw [g1, g2]
    by_cases hp : HasParent t.params
    · have key : ∀ p p', s0.ts[j]? = some p → s0'.ts[j]? = some p' → (WaitsFor s0' i j d ↔ WaitsFor s0 i j d) := by
        intro p p' h1 h2
        have e1 : devAt s0.ts j = p.params.src.dev := by unfold devAt; rw [h1]
        have e2 : devAt s0'.ts j = p'.params.src.dev := by unfold devAt; rw [h2]
        rw [I'.waits_group ht' (hpp.mpr hp), I.waits_group ht hp, hgm, devs, devs', e1, e2,
          P.delay i j t t' p p' ht ht' hp h1 h2]
        unfold parentOf
        rw [g1, g2]
      constructor
      · intro h
        obtain ⟨_, _, _, _, h2, _⟩ := id h
        obtain ⟨p, h1⟩ := P.back h2
        exact (key p _ h1 h2).mp h
      · intro h
        obtain ⟨_, _, _, _, h1, _⟩ := id h
        obtain ⟨p', h2⟩ := P.at h1
        exact (key _ p' h1 h2).mpr h
    · rw [I'.waits_niu hb' ht' (fun h => hp (hpp.mp h)), I.waits_niu hb ht hp]
      unfold TwoBefore
      simp only [mates, early]
  -- transfers at a place
  have get : ∀ i, i < s0.ts.length → ∃ t t', s0.ts[i]? = some t ∧ s0'.ts[i]? = some t' ∧ (job i).t = t.params ∧
      (job' i).t = t'.params ∧ (job i).route = t.route ∧ (job' i).route = t'.route := by
    intro i hi
    have ht := List.getElem?_eq_getElem hi
    obtain ⟨t', ht'⟩ := P.at ht
    exact ⟨_, t', ht, ht', (hd i _ ht).1, (hd' i _ ht').1, (hd i _ ht).2.1, (hd' i _ ht').2.1⟩
  refine ⟨⟨fun i hi => ?_, fun i hi => ?_, fun i hi => ?_, fun i hi j d ha => ?_⟩, fun i hi => ?_, fun i hi => ?_,
    fun i hi => ?_, fun i j hi hj => ?_, fun i hi => ?_⟩
  · obtain ⟨t, t', a, a', b, b', _⟩ := get i hi
    rw [b, b']; exact (P.same i t t' a a').1
  · obtain ⟨t, t', a, a', b, b', _⟩ := get i hi
    rw [b, b']; exact (P.same i t t' a a').2.1
  · obtain ⟨t, t', a, a', b, b', _⟩ := get i hi
    have e := (hd i _ a).2.2
    have e' := (hd' i t' a').2.2
    have key : ∀ p : Nat × Nat, (job' i).after = some p ↔ (job i).after = some p := by
      intro p
      exact (e' p.1 p.2).trans ((waits i _ a p.1 p.2).trans (e p.1 p.2).symm)
    cases h1 : (job i).after with
    | none =>
      cases h2 : (job' i).after with
      | none => rfl
      | some p => rw [(key p).mp h2] at h1; cases h1
    | some p => exact (key p).mpr h1
  · have ht := List.getElem?_eq_getElem hi
    obtain ⟨_, _, _, _, h2, _⟩ := ((hd i _ ht).2.2 j d).mp ha
    exact (List.getElem?_eq_some_iff.mp h2).1
  · obtain ⟨t, t', a, a', b, b', _⟩ := get i hi
    rw [b, b']; exact (P.same i t t' a a').2.2.2.1
  · obtain ⟨t, t', a, a', b, b', _⟩ := get i hi
    rw [b, b']; exact (P.same i t t' a a').2.2.1
  · obtain ⟨t, t', a, a', b, b', r, r'⟩ := get i hi
    obtain ⟨φ, h1, h2⟩ := P.links i t t' a a'
    refine ⟨φ, by rw [r, r', h1], fun l hl j hj => ?_⟩
    obtain ⟨u, u', c, c', _, _, q, q'⟩ := get j hj
    rw [r] at hl
    rw [q, q']
    exact h2 l hl j u u' c c'
  · obtain ⟨t, t', a, a', b, b', _⟩ := get i hi
    obtain ⟨u, u', c, c', q, q', _⟩ := get j hj
    have := P.sources i j t t' u u' a a' c c'
    unfold leaves Job.began
    simp only
    rw [b, b', q, q']
    by_cases h : u.params.noc = t.params.noc ∧ SameCore dev u.params.src t.params.src
    · rw [if_pos h, if_pos (this.mpr h)]
    · rw [if_neg h, if_neg (fun x => h (this.mp x))]
  · obtain ⟨t, t', a, a', b, b', _⟩ := get i hi
    obtain ⟨d, d', h1, h2, h3, h4⟩ := P.sinks i t t' a a'
    refine ⟨d, d', by rw [b, h1], by rw [b', h2], h3, fun j hj => ?_⟩
    obtain ⟨u, u', c, c', q, q', _⟩ := get j hj
    obtain ⟨e, e', g1, g2, _, _⟩ := P.sinks j u u' c c'
    have := h4 j u u' e e' c c' g1 g2
    unfold reaches Job.began
    simp only
    rw [b, b', q, q', g1, g2]
    simp only
    by_cases h : u.params.noc = t.params.noc
    · by_cases hs : SameCore dev e d
      · obtain ⟨x, y⟩ := this.mpr ⟨h, hs⟩
        rw [if_pos h, if_pos hs, if_pos x, if_pos y]
      · rw [if_pos h, if_neg hs]
        by_cases h' : u'.params.noc = t'.params.noc
        · rw [if_pos h', if_neg (fun x => hs (this.mp ⟨h', x⟩).2)]
        · rw [if_neg h']
    · rw [if_neg h]
      by_cases h' : u'.params.noc = t'.params.noc
      · rw [if_pos h', if_neg (fun x => h (this.mp ⟨h', x⟩).1)]
      · rw [if_neg h']

end

/-- Two runs with congestion and rounding. -/
theorem alike_rounded {fp : FP} {dev dev' : Device} {ho ho' : HashOrder} {wl wl' : Workload} {s0 s0' : Sim} {cpt : Nat}
    {golden golden' : GoldenMap}
    (hdev : DeviceOk dev) (hT : TableOk fp dev.tbt) (hdev' : DeviceOk dev') (hT' : TableOk fp dev'.tbt)
    (hm : dev'.multichip = dev.multichip) (hbw : dev'.linkBw = dev.linkBw)
    (hw : ∀ t ∈ wl.transfers, 0 ≤ t.injectionRate ∧ RectsOk t)
    (hw' : ∀ t ∈ wl'.transfers, 0 ≤ t.injectionRate ∧ RectsOk t)
    (hpos : 0 < cpt) (hcpt : cpt < 4244967296)
    (h0 : initSim fp dev ho wl = .ok s0) (h0' : initSim fp dev' ho' wl' = .ok s0')
    (hb : ∀ l, (ho.buckets l).Perm l) (hb' : ∀ l, (ho'.buckets l).Perm l) (P : Alike fp dev dev' s0 s0')
    {e : Ending} {s' : Sim} {c' : Nat}
    (h : runLoop (simConfig fp dev cpt golden true) ho wl = .ok e)
    (h' : runLoop (simConfig fp dev' cpt golden' true) ho' wl' = .ok (.finished s' c')) :
    ∃ s, e = .finished s c' ∧ s.ts.map (fun t => (t.start, t.endc)) = s'.ts.map (fun t => (t.start, t.endc)) := by
  obtain ⟨job, hd⟩ := describes_exists h0
  obtain ⟨job', hd'⟩ := describes_exists h0'
  have F := P.image h0 h0' hb hb' hd hd'
  have a := endsAs_of_shows (cfg := simConfig fp dev cpt golden true) hpos (computeRates_ok fp dev true) h0
    (fl := fp.f32.fl) (job := job) (speed := sharedIn fp dev job cpt (planOrder fp dev job s0.ts.length cpt s0.queue))
    (fun c s hs => by
      obtain ⟨k, k1, k2, _⟩ := follows_plan hdev hT hw h0 hpos hcpt hd hs
      rw [← run_plan fp dev job s0.ts.length hpos s0.queue k] at k2
      exact ⟨k, k1, k2⟩) h
  have a' := endsAs_of_shows (cfg := simConfig fp dev' cpt golden' true) hpos (computeRates_ok fp dev' true) h0'
    (fl := fp.f32.fl) (job := job') (speed := sharedIn fp dev' job' cpt (planOrder fp dev' job' s0'.ts.length cpt s0'.queue))
    (fun c s hs => by
      obtain ⟨k, k1, k2, _⟩ := follows_plan hdev' hT' hw' h0' hpos hcpt hd' hs
      rw [← run_plan fp dev' job' s0'.ts.length hpos s0'.queue k] at k2
      exact ⟨k, k1, k2⟩) h'
  rw [P.len, P.queue h0 h0'] at a'
  refine same_run (cpt := cpt) (fun k => ?_) a (fun s c he => finished_le (he ▸ h)) a'
    (finished_le (cfg := simConfig fp dev' cpt golden' true) h')
  have hA := (F.plan_eq hm hbw cpt s0.queue k).1
  show Agree _ _ (run _ _ cpt _ k) (run _ _ cpt _ k)
  rw [run_plan fp dev job _ hpos, run_plan fp dev' job' _ hpos]
  exact hA

end NPE
