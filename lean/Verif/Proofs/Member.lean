import Verif.Proofs.Step

/-
What one timestep does to one transfer.
-/

namespace NPE
open Spec (Reach)

theorem foldlM_update_other {e : Nat} : ∀ (l : List Int) (tk tk' : Tracker) (k : Nat),
    Out.foldlM (fun tk c => Tracker.update tk c e) tk l = .ok tk' → (k : Int) ∉ l →
    tk'[k]? = tk[k]? := by
  intro l
  induction l with
  | nil =>
    intro tk tk' k h _
    simp only [Out.foldlM_nil, Out.ok.injEq] at h
    rw [h]
  | cons j l ih =>
    intro tk tk' k h hk
    rw [Out.foldlM_cons] at h
    obtain ⟨tk1, h1, h⟩ := Out.bind_eq_ok.mp h
    rw [List.mem_cons, not_or] at hk
    rw [ih tk1 tk' k h hk.2]
    unfold Tracker.update at h1
    split at h1
    · obtain ⟨cp, hcp, h1⟩ := Out.bind_eq_ok.mp h1
      obtain ⟨hj, _⟩ := Tracker.get_eq_ok.mp hcp
      rw [← Out.ok.inj h1, List.getElem?_set_ne]
      omega
    · rw [← Out.ok.inj h1]

/-- Completions never change the delay of a checkpoint. -/
theorem foldlM_update_delay {e : Nat} : ∀ (l : List Int) (tk tk' : Tracker) (k : Nat),
    Out.foldlM (fun tk c => Tracker.update tk c e) tk l = .ok tk' →
    tk'[k]?.map (·.delay) = tk[k]?.map (·.delay) := by
  intro l
  induction l with
  | nil =>
    intro tk tk' k h
    simp only [Out.foldlM_nil, Out.ok.injEq] at h
    rw [h]
  | cons j l ih =>
    intro tk tk' k h
    rw [Out.foldlM_cons] at h
    obtain ⟨tk1, h1, h⟩ := Out.bind_eq_ok.mp h
    rw [ih tk1 tk' k h]
    unfold Tracker.update at h1
    split at h1
    · obtain ⟨cp, hcp, h1⟩ := Out.bind_eq_ok.mp h1
      obtain ⟨hj, hcp⟩ := Tracker.get_eq_ok.mp hcp
      rw [← Out.ok.inj h1, List.getElem?_set]
      split
      · rename_i hjk
        subst hjk
        have := (List.getElem?_eq_some_iff.mp hcp).1
        rw [if_pos this, hcp]; rfl
      · rfl
    · rw [← Out.ok.inj h1]

theorem Updated.deps_delay {cfg : SimCfg} {curr sot : Nat} {u u' : Upd} {id : Nat}
    (U : Updated cfg curr sot u u' id) (k : Nat) :
    u'.deps[k]?.map (·.delay) = u.deps[k]?.map (·.delay) := by
  rcases U.res with ⟨_, hu⟩ | ⟨_, e, deps', g, gm, _, hd, _, _, hu⟩
  · rw [hu]
  · rw [hu]; exact foldlM_update_delay _ _ _ k hd

theorem foldUpd_delay {cfg : SimCfg} {curr sot : Nat} : ∀ (l : List Nat) (u u' : Upd) (k : Nat),
    Out.foldlM (updateOne cfg curr sot) u l = .ok u' →
    u'.deps[k]?.map (·.delay) = u.deps[k]?.map (·.delay) := by
  intro l
  induction l with
  | nil =>
    intro u u' k h
    simp only [Out.foldlM_nil, Out.ok.injEq] at h
    rw [h]
  | cons id l ih =>
    intro u u' k h
    rw [Out.foldlM_cons] at h
    obtain ⟨u1, h1, h⟩ := Out.bind_eq_ok.mp h
    obtain ⟨U⟩ := updateOne_ok h1
    rw [ih u1 u' k h, U.deps_delay]

/-- A checkpoint that no transfer of the list provides keeps its state. -/
theorem foldUpd_deps_same {cfg : SimCfg} {curr sot : Nat} {k : Nat} : ∀ (l : List Nat) (u u' : Upd),
    Out.foldlM (updateOne cfg curr sot) u l = .ok u' →
    (∀ i ∈ l, ∀ t, u.ts[i]? = some t → (k : Int) ∉ t.requiredBy) →
    u'.deps[k]? = u.deps[k]? := by
  intro l
  induction l with
  | nil =>
    intro u u' h _
    simp only [Out.foldlM_nil, Out.ok.injEq] at h
    rw [h]
  | cons id l ih =>
    intro u u' h hk
    rw [Out.foldlM_cons] at h
    obtain ⟨u1, h1, h⟩ := Out.bind_eq_ok.mp h
    obtain ⟨U⟩ := updateOne_ok h1
    have hkid := hk id (by simp) U.t U.get
    have h2 : ∃ t', u1.ts = u.ts.set id t' ∧ t'.requiredBy = U.t.requiredBy ∧
        u1.deps[k]? = u.deps[k]? := by
      rcases U.res with ⟨_, hu⟩ | ⟨_, e, deps', g, gm, _, hd, _, _, hu⟩
      · exact ⟨_, congrArg Upd.ts hu, rfl, by rw [congrArg Upd.deps hu]⟩
      · exact ⟨_, congrArg Upd.ts hu, rfl, by
          rw [congrArg Upd.deps hu]; exact foldlM_update_other _ _ _ k hd hkid⟩
    obtain ⟨t', e1, e2, e3⟩ := h2
    rw [ih u1 u' h, e3]
    intro i hi t ht
    rw [e1] at ht
    rcases getElem?_set' ht with ⟨_, h4⟩ | ⟨_, h4⟩
    · rw [h4, e2]; exact hkid
    · exact hk i (by simp [hi]) t h4

/-- The update of one member of the list. -/
theorem foldUpd_split {cfg : SimCfg} {curr sot : Nat} {l : List Nat} {u u' : Upd} {i : Nat}
    (hnd : l.Nodup) (hi : i ∈ l) (h : Out.foldlM (updateOne cfg curr sot) u l = .ok u') :
    ∃ l1 l2 ua ub, l = l1 ++ i :: l2 ∧ i ∉ l1 ∧ i ∉ l2 ∧
      Out.foldlM (updateOne cfg curr sot) u l1 = .ok ua ∧ updateOne cfg curr sot ua i = .ok ub ∧
      Out.foldlM (updateOne cfg curr sot) ub l2 = .ok u' := by
  obtain ⟨l1, l2, rfl⟩ := List.append_of_mem hi
  rw [Out.foldlM_append] at h
  obtain ⟨ua, h1, h⟩ := Out.bind_eq_ok.mp h
  rw [Out.foldlM_cons] at h
  obtain ⟨ub, h2, h3⟩ := Out.bind_eq_ok.mp h
  rw [List.nodup_append] at hnd
  have h4 := List.nodup_cons.mp hnd.2.1
  exact ⟨l1, l2, ua, ub, rfl, fun hc => hnd.2.2 i hc i (by simp) rfl, h4.1, h1, h2, h3⟩

theorem cyclesActive_congr {cpt curr sot : Nat} {t : TState} {d d' : Tracker}
    (h : d'.get t.dependsOn = d.get t.dependsOn) :
    cyclesActive cpt curr sot t d' = cyclesActive cpt curr sot t d := by
  unfold cyclesActive Tracker.endCycle
  rw [h]

/-- What a timestep does to an active transfer: `t` before the timestep, `t2` after activation
and rate computation, `t'` at the end. -/
structure Member (cfg : SimCfg) (curr : Nat) (s s' : Sim) (i : Nat) (t t2 t' : TState) : Prop where
  before : s.ts[i]? = some t
  after : s'.ts[i]? = some t'
  same : t2 = { t with start := t2.start, bw := t2.bw }
  start : (i ∈ s.live → t2.start = t.start) ∧ (i ∉ s.live → t2.start = actStart s.deps t)
  notWaiting : i ∉ s'.queue.map (·.2)
  started : Started s.deps curr t2
  ended : ∃ cyc mx, cyclesActive cfg.cpt curr (curr - cfg.cpt) t2 s.deps = .ok cyc ∧
    toSize (cfg.fp.f32.fl (cfg.fp.f32.fl cyc * t2.bw)) = .ok mx ∧
    ((t2.moved + min (t2.params.totalBytes - t2.moved) mx < t2.params.totalBytes ∧ i ∈ s'.live ∧
      t' = { t2 with moved := t2.moved + min (t2.params.totalBytes - t2.moved) mx }) ∨
     (t2.moved + min (t2.params.totalBytes - t2.moved) mx = t2.params.totalBytes ∧ i ∉ s'.live ∧
      ∃ e, transferEnd cfg.fp (curr - cfg.cpt) t2 (min (t2.params.totalBytes - t2.moved) mx) = .ok e ∧
        t' = { t2 with moved := t2.params.totalBytes, endc := e % 4294967296 }))

theorem StepFacts.member_rates {cfg : SimCfg} {prev curr : Nat} {s s' : Sim}
    (F : StepFacts cfg prev curr s s') {i : Nat} (h : i ∈ F.P.s1.live) :
    ∃ t t2 t', F.P.ts2[i]? = some t2 ∧ Member cfg curr s s' i t t2 t' := by
  have hnd : F.P.s1.live.Nodup := (List.nodup_append.mp F.inv1.nodup).2.1
  have hndacts : (F.acts.map (·.2)).Nodup := by
    have := hnd; rw [F.live1, List.nodup_append] at this; exact this.2.1
  have hilt : i < F.P.s1.ts.length := F.inv1.lt i (List.mem_append_right _ h)
  have h1 : F.P.s1.ts[i]? = some F.P.s1.ts[i] := List.getElem?_eq_getElem hilt
  have h2 : F.P.ts2[i]? = some (F.P.ts2[i]'(by rw [F.len2]; exact hilt)) :=
    List.getElem?_eq_getElem _
  set t1 := F.P.s1.ts[i] with ht1
  set t2 := F.P.ts2[i]'(by rw [F.len2]; exact hilt) with ht2
  have e2 := F.only2 i t1 t2 h1 h2
  have hlen : F.P.s1.ts.length = s.ts.length := by rw [F.ts1]; simp
  have h0 : s.ts[i]? = some (s.ts[i]'(by rw [← hlen]; exact hilt)) := List.getElem?_eq_getElem _
  set t := s.ts[i]'(by rw [← hlen]; exact hilt) with ht
  have e1 : t1 = if i ∈ F.acts.map (·.2) then actT s.deps t else t := by
    have := h1
    rw [F.ts1, updIds_getElem? _ _ _ hndacts, h0] at this
    split <;> rename_i hc <;> simp only [hc, if_true, if_false, Option.map_some, Option.some.injEq] at this
    · exact this.symm
    · exact this.symm
  obtain ⟨l1, l2, ua, ub, hl, hi1, hi2, hf1, hup, hf2⟩ := foldUpd_split hnd h F.P.fold
  obtain ⟨_, ho1⟩ := foldUpd_other _ _ _ hf1
  obtain ⟨_, ho2⟩ := foldUpd_other _ _ _ hf2
  obtain ⟨U⟩ := updateOne_ok hup
  have eU : U.t = t2 := by
    have a1 := U.get
    rw [ho1 i hi1] at a1
    simp only at a1
    rw [h2] at a1
    exact (Option.some.inj a1).symm
  have hiq : i ∉ F.P.s1.queue.map (·.2) := fun hc =>
    (List.nodup_append.mp F.inv1.nodup).2.2 i hc i h rfl
  have hst2 : Started F.P.s1.deps curr t2 := F.inv2.started i t2 h2 hiq
  rw [F.deps1] at hst2
  -- the dependency is not touched before this transfer is updated
  have hget : ua.deps.get t2.dependsOn = s.deps.get t2.dependsOn := by
    by_cases hne : t2.dependsOn = -1
    · rw [hne]; rfl
    · have hd : F.P.s1.deps.done t2.dependsOn curr = .ok true := by rw [F.deps1]; exact hst2.2.1
      obtain ⟨p, tp, hp, hj, _, hpl⟩ := F.inv2.done_provider (i := i) (t := t2) h2 hne hd
      have hj0 := F.inv2.rbValid p tp hp _ hj
      rw [← F.deps1]
      apply Tracker.get_congr
      refine foldUpd_deps_same l1 _ _ hf1 ?_
      intro i' hi' t' ht' hc
      rw [Int.toNat_of_nonneg hj0] at hc
      have := provider_unique F.inv2.rbNodup hp ht' hj hc
      subst this
      apply hpl
      show p ∈ F.P.s1.live
      rw [hl]; simp [hi']
  have hs'ts : s'.ts[i]? = ub.ts[i]? := by
    rw [F.P.res]
    exact ho2 i hi2
  have hs'live : i ∈ s'.live ↔ isComplete ub.ts i = false := by
    rw [F.P.res]
    simp only [List.mem_filter, h, true_and, Bool.not_eq_true']
    rw [isComplete_congr (ho2 i hi2)]
  have hualt : i < ua.ts.length := (List.getElem?_eq_some_iff.mp U.get).1
  have hle := F.inv2.le i t2 h2
  have hc := U.cycles
  rw [eU, cyclesActive_congr hget] at hc
  have hm := U.maxB
  rw [eU] at hm
  have hres := U.res
  rw [eU] at hres
  have hsame : t2 = { t with start := t2.start, bw := t2.bw } := by
    rw [e2, e1]
    split <;> rfl
  have hstart : (i ∈ s.live → t2.start = t.start) ∧ (i ∉ s.live → t2.start = actStart s.deps t) := by
    have e2' : t2.start = t1.start := by rw [e2]
    constructor
    · intro hl'
      have : i ∉ F.acts.map (·.2) := by
        have := hnd; rw [F.live1, List.nodup_append] at this
        exact fun hc => this.2.2 i hl' i hc rfl
      rw [e2', e1, if_neg this]
    · intro hl'
      have : i ∈ F.acts.map (·.2) := by
        rw [F.live1, List.mem_append] at h
        exact h.resolve_left hl'
      rw [e2', e1, if_pos this]; rfl
  have hnw : i ∉ s'.queue.map (·.2) := by rw [F.P.res]; exact hiq
  rcases hres with ⟨hne, hu⟩ | ⟨heq, e, deps', g, gm, he, _, _, _, hu⟩
  · have hget' : ub.ts[i]? = some { t2 with moved := t2.moved + min (t2.params.totalBytes - t2.moved) U.mx } := by
      rw [congrArg Upd.ts hu]; simp [hualt]
    refine ⟨t, t2, _, h2, h0, hs'ts.trans hget', hsame, hstart, hnw, hst2, U.cyc, U.mx, hc, hm, Or.inl ⟨by omega, ?_, rfl⟩⟩
    rw [hs'live, isComplete_iff hget']
    simp only [decide_eq_false_iff_not]
    omega
  · have hget' : ub.ts[i]? = some { t2 with moved := t2.params.totalBytes, endc := e % 4294967296 } := by
      rw [congrArg Upd.ts hu]; simp [hualt]
    refine ⟨t, t2, _, h2, h0, hs'ts.trans hget', hsame, hstart, hnw, hst2, U.cyc, U.mx, hc, hm, Or.inr ⟨by omega, ?_, e, he, rfl⟩⟩
    rw [hs'live, isComplete_iff hget']
    simp

theorem StepFacts.member {cfg : SimCfg} {prev curr : Nat} {s s' : Sim}
    (F : StepFacts cfg prev curr s s') {i : Nat} (h : i ∈ F.P.s1.live) :
    ∃ t t2 t', Member cfg curr s s' i t t2 t' := by
  obtain ⟨t, t2, t', _, M⟩ := F.member_rates h
  exact ⟨t, t2, t', M⟩

/-- A transfer that is not active in a timestep keeps its state (up to the bandwidth field). -/
theorem StepFacts.inactive {cfg : SimCfg} {prev curr : Nat} {s s' : Sim}
    (F : StepFacts cfg prev curr s s') {i : Nat} {t : TState} (ht : s.ts[i]? = some t)
    (h : i ∉ F.P.s1.live) : ∃ t', s'.ts[i]? = some t' ∧ t' = { t with bw := t'.bw } := by
  have hndacts : (F.acts.map (·.2)).Nodup := by
    have := (List.nodup_append.mp F.inv1.nodup).2.1
    rw [F.live1, List.nodup_append] at this; exact this.2.1
  have h1 : F.P.s1.ts[i]? = some t := by
    rw [F.ts1, updIds_getElem? _ _ _ hndacts, if_neg, ht]
    intro hc
    apply h
    rw [F.live1]; exact List.mem_append_right _ hc
  have hlt : i < F.P.ts2.length := by
    rw [F.len2]; exact (List.getElem?_eq_some_iff.mp h1).1
  have h2 : F.P.ts2[i]? = some F.P.ts2[i] := List.getElem?_eq_getElem hlt
  refine ⟨F.P.ts2[i], ?_, F.only2 i _ _ h1 h2⟩
  rw [congrArg Sim.ts F.P.res]
  show F.P.u.ts[i]? = _
  rw [(foldUpd_other _ _ _ F.P.fold).2 i h]
  exact h2

/-- Membership of the active list after activation. -/
theorem StepFacts.mem_live1 {cfg : SimCfg} {prev curr : Nat} {s s' : Sim}
    (F : StepFacts cfg prev curr s s') (i : Nat) :
    i ∈ F.P.s1.live ↔ i ∈ s.live ∨ ∃ o, (o, i) ∈ s.queue ∧ isDue s.ts s.deps curr (o, i) = true := by
  rw [F.live1, List.mem_append, List.mem_map]
  refine or_congr Iff.rfl ?_
  constructor
  · rintro ⟨⟨o, j⟩, hx, rfl⟩
    have := List.mem_filter.mp (F.actsPerm.subset hx)
    exact ⟨o, this.1, this.2⟩
  · rintro ⟨o, h1, h2⟩
    exact ⟨(o, i), F.actsPerm.symm.subset (List.mem_filter.mpr ⟨h1, h2⟩), rfl⟩

theorem StepFacts.queue_eq {cfg : SimCfg} {prev curr : Nat} {s s' : Sim}
    (F : StepFacts cfg prev curr s s') (x : Nat × Nat) :
    x ∈ s'.queue ↔ x ∈ s.queue ∧ isDue s.ts s.deps curr x = false := by
  rw [congrArg Sim.queue F.P.res]
  show x ∈ F.P.s1.queue ↔ _
  rw [F.queuePerm.mem_iff, List.mem_filter, Bool.not_eq_true']

theorem StepFacts.delay {cfg : SimCfg} {prev curr : Nat} {s s' : Sim}
    (F : StepFacts cfg prev curr s s') (k : Nat) :
    s'.deps[k]?.map (·.delay) = s.deps[k]?.map (·.delay) := by
  rw [congrArg Sim.deps F.P.res]
  show F.P.u.deps[k]?.map _ = _
  rw [foldUpd_delay _ _ _ k F.P.fold, F.deps1]

/-- Parameters, route and dependencies of a transfer never change. -/
theorem StepFacts.stat {cfg : SimCfg} {prev curr : Nat} {s s' : Sim}
    (F : StepFacts cfg prev curr s s') {i : Nat} {t : TState} (ht : s.ts[i]? = some t) :
    ∃ t', s'.ts[i]? = some t' ∧ stat t' = stat t := by
  by_cases h : i ∈ F.P.s1.live
  · obtain ⟨t0, t2, t', M⟩ := F.member h
    have := M.before
    rw [ht] at this
    have e := Option.some.inj this
    refine ⟨t', M.after, ?_⟩
    have h2 : NPE.stat t2 = NPE.stat t := by rw [M.same, e]; rfl
    rw [← h2]
    obtain ⟨_, _, _, _, ⟨_, _, e⟩ | ⟨_, _, _, _, e⟩⟩ := M.ended
    · rw [e]; rfl
    · rw [e]; rfl
  · obtain ⟨t', h1, h2⟩ := F.inactive ht h
    exact ⟨t', h1, by rw [h2]; rfl⟩

theorem StepFacts.len {cfg : SimCfg} {prev curr : Nat} {s s' : Sim}
    (F : StepFacts cfg prev curr s s') : s'.ts.length = s.ts.length := by
  rw [congrArg Sim.ts F.P.res]
  show F.P.u.ts.length = _
  rw [(foldUpd_other _ _ _ F.P.fold).1]
  show F.P.ts2.length = _
  rw [F.len2, F.ts1]; simp

theorem Spec.Reach.stat {cfg : SimCfg} (hr : RatesOk cfg.rates) {s0 : Sim} (h0 : Inv 0 s0) {c : Nat}
    {s : Sim} (h : Reach cfg s0 c s) : s.ts.map stat = s0.ts.map stat := by
  induction h with
  | start => rfl
  | @step c sa sb hs _ h ih =>
    obtain ⟨F⟩ := step_facts hr (Nat.le_add_right _ _) (hs.inv hr h0) h
    rw [← ih]
    apply List.ext_getElem?
    intro i
    rw [List.getElem?_map, List.getElem?_map]
    rcases lt_or_ge i sa.ts.length with hi | hi
    · obtain ⟨t', h1, h2⟩ := F.stat (List.getElem?_eq_getElem hi)
      rw [h1, List.getElem?_eq_getElem hi, Option.map_some, Option.map_some, h2]
    · rw [List.getElem?_eq_none hi, List.getElem?_eq_none (by rw [F.len]; exact hi)]

theorem Spec.Reach.delay {cfg : SimCfg} (hr : RatesOk cfg.rates) {s0 : Sim} (h0 : Inv 0 s0) {c : Nat}
    {s : Sim} (h : Reach cfg s0 c s) (k : Nat) :
    s.deps[k]?.map (·.delay) = s0.deps[k]?.map (·.delay) := by
  induction h with
  | start => rfl
  | step hs _ h ih =>
    obtain ⟨F⟩ := step_facts hr (Nat.le_add_right _ _) (hs.inv hr h0) h
    rw [F.delay, ih]

theorem map_stat_get {ts ts0 : List TState} (h : ts.map stat = ts0.map stat) {i : Nat} {t : TState}
    (ht : ts[i]? = some t) : ∃ t0, ts0[i]? = some t0 ∧ stat t = stat t0 := by
  have h1 : (ts.map stat)[i]? = some (stat t) := by simp [ht]
  rw [h, List.getElem?_map] at h1
  obtain ⟨t0, h2, h3⟩ := Option.map_eq_some_iff.mp h1
  exact ⟨t0, h2, h3.symm⟩

/-- Active transfers are incomplete after a timestep. -/
theorem Spec.Reach.live_lt {cfg : SimCfg} (hr : RatesOk cfg.rates) {s0 : Sim} (h0 : Inv 0 s0)
    (hl0 : s0.live = []) {c : Nat} {s : Sim} (h : Reach cfg s0 c s) {i : Nat} (hi : i ∈ s.live)
    {t : TState} (ht : s.ts[i]? = some t) : t.moved < t.params.totalBytes := by
  cases h with
  | start => rw [hl0] at hi; simp at hi
  | step hs _ h =>
    obtain ⟨F⟩ := step_facts hr (Nat.le_add_right _ _) (hs.inv hr h0) h
    have h1 : i ∈ F.P.s1.live := by
      have := hi
      rw [congrArg Sim.live F.P.res] at this
      exact (List.mem_filter.mp this).1
    obtain ⟨t0, t2, t', M⟩ := F.member h1
    have := M.after
    rw [ht] at this
    have e := Option.some.inj this
    obtain ⟨_, _, _, _, ⟨h2, _, e'⟩ | ⟨_, hc, _⟩⟩ := M.ended
    · rw [e, e']; exact h2
    · exact absurd hi hc

end NPE
