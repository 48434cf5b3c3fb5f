import Verif.Spec.Fluid
import Verif.Proofs.Edges
import Verif.Proofs.Waits

/-
The engine follows the order-free description.
-/

namespace NPE
open NPE.Spec NPE.Spec.Fluid

/-- A rate computation gives the active transfers the speeds of the description. -/
def Gives (r : Rates) (job : Nat → Job) (n cpt : Nat) (speed : Speed) : Prop :=
  ∀ (curr : Nat) (g g' : Grids) (ts ts' : List TState) (live : List Nat) (σ : Fluid.State),
    curr < 4294967296 → cpt ≤ curr → ts.length = n → live.Nodup → (∀ i ∈ live, i < n) →
    (∀ (i : Nat) (t : TState), ts[i]? = some t → t.params = (job i).t ∧ t.route = (job i).route) →
    (∀ (i : Nat) (t : TState), ts[i]? = some t → i ∈ live → t.start ≤ curr ∧ σ i = .active t.start t.moved) →
    (∀ i, i < n → i ∉ live → ∀ c m, σ i ≠ .active c m) →
    r (curr - cpt) curr g ts live = .ok (ts', g') →
    ∀ i ∈ live, ∀ t', ts'[i]? = some t' → t'.bw = speed curr σ i

/-- The checkpoint of a transfer, in terms of the transfer that it waits for. -/
theorem Inv.dep_view {prev : Nat} {s : Sim} (hi : Inv prev s) {σ : Fluid.State} (hsh : Shows s σ)
    {i : Nat} {ti : TState} (hti : s.ts[i]? = some ti) {a : Option (Nat × Nat)}
    (ha : ∀ j d, a = some (j, d) ↔ WaitsFor s i j d) :
    (a = none ∧ ti.dependsOn = -1) ∨
    ∃ j d cp, a = some (j, d) ∧ ti.dependsOn ≠ -1 ∧ s.deps.get ti.dependsOn = .ok cp ∧ cp.delay = d ∧
      cp.total = 1 ∧
      ((∃ c e, σ j = .finished c e ∧ cp.completed = 1 ∧ cp.endc = e) ∨
        ((∀ c e, σ j ≠ .finished c e) ∧ cp.completed = 0)) := by
  rcases hi.waits_cases hti with ⟨h1, h2⟩ | ⟨j, d, hw, _⟩
  · refine Or.inl ⟨?_, h1⟩
    cases hc : a with
    | none => rfl
    | some x => exact absurd ((ha x.1 x.2).mp hc) (h2 _ _)
  · obtain ⟨ti', tj, cp, h1, h2, h3, h4, h5, h6⟩ := id hw
    rw [hti] at h1
    have := Option.some.inj h1
    subst this
    obtain ⟨cp', hcp', htot, hlive, hfin⟩ := hi.tracker j tj h2 _ h3
    rw [h5] at hcp'
    have := Option.some.inj hcp'
    subst this
    refine Or.inr ⟨j, d, cp, (ha j d).mpr hw, by omega, Tracker.get_eq_ok.mpr ⟨h4, h5⟩, h6, htot, ?_⟩
    have hs := hsh j tj h2
    cases hj : σ j with
    | waiting =>
      rw [hj] at hs
      exact Or.inr ⟨by simp, (hlive (Or.inl (waiting_iff.mp hs))).1⟩
    | active c m =>
      rw [hj] at hs
      exact Or.inr ⟨by simp, (hlive (Or.inr hs.1)).1⟩
    | finished c e =>
      rw [hj] at hs
      obtain ⟨⟨t, _, _, hnw, hna⟩, e1, e2⟩ := hs
      obtain ⟨f1, f2⟩ := hfin ⟨fun h => hnw (waiting_iff.mpr h), hna⟩
      exact Or.inl ⟨c, e, rfl, f1, f2.trans e2⟩

theorem Spec.Fluid.Shows.waiting {s : Sim} {σ : Fluid.State} (h : Shows s σ) {i : Nat} {t : TState} (ht : s.ts[i]? = some t)
    {prev : Nat} (hi : Inv prev s) : Waiting s i ↔ σ i = .waiting := by
  have := h i t ht
  cases hs : σ i with
  | waiting => rw [hs] at this; exact ⟨fun _ => rfl, fun _ => this⟩
  | active c m =>
    rw [hs] at this
    refine ⟨fun hw => ?_, fun h => by cases h⟩
    exact absurd rfl ((List.nodup_append.mp hi.nodup).2.2 i (waiting_iff.mp hw) i this.1)
  | finished c e =>
    rw [hs] at this
    obtain ⟨⟨_, _, _, hnw, _⟩, _⟩ := this
    exact ⟨fun hw => absurd hw hnw, fun h => by cases h⟩

/-- The activation phase is the start of all transfers that may begin. -/
theorem StepFacts.shows_start {cfg : SimCfg} {prev curr : Nat} {s s' : Sim} (hi : Inv prev s)
    (F : StepFacts cfg prev curr s s') {σ : Fluid.State} (hsh : Shows s σ) {job : Nat → Job}
    (hd : Describes job s) : Shows F.P.s1 (start job curr σ) := by
  intro i t1 h1
  have hndacts : (F.acts.map (·.2)).Nodup := by
    have := (List.nodup_append.mp F.inv1.nodup).2.1
    rw [F.live1, List.nodup_append] at this; exact this.2.1
  have h0 := h1
  rw [F.ts1, updIds_getElem? _ _ _ hndacts] at h0
  obtain ⟨t, ht, et⟩ : ∃ t, s.ts[i]? = some t ∧ t1 = if i ∈ F.acts.map (·.2) then actT s.deps t else t := by
    split at h0
    · rename_i hc
      obtain ⟨t, ht, e⟩ := Option.map_eq_some_iff.mp h0
      exact ⟨t, ht, by rw [if_pos hc, e]⟩
    · rename_i hc
      exact ⟨t1, h0, by rw [if_neg hc]⟩
  obtain ⟨hp, _, hw⟩ := hd i t ht
  have hact : i ∈ F.acts.map (·.2) ↔ ∃ o, (o, i) ∈ s.queue ∧ isDue s.ts s.deps curr (o, i) = true := by
    constructor
    · intro hx
      obtain ⟨⟨o, j⟩, hm, rfl⟩ := List.mem_map.mp hx
      have := List.mem_filter.mp (F.actsPerm.subset hm)
      exact ⟨o, this.1, this.2⟩
    · rintro ⟨o, h1, h2⟩
      exact List.mem_map.mpr ⟨(o, i), F.actsPerm.symm.subset (List.mem_filter.mpr ⟨h1, h2⟩), rfl⟩
  -- what begins
  have key : (∀ c, begins job curr σ i = some c → i ∈ F.acts.map (·.2) ∧ t1.start = c ∧ t1.moved = 0) ∧
      (begins job curr σ i = none → i ∉ F.acts.map (·.2)) := by
    by_cases hwt : Waiting s i
    · have hs := (hsh.waiting ht hi).mp hwt
      obtain ⟨o, ho⟩ := hwt
      obtain ⟨e1, e2, e3⟩ := hi.waiting _ ho t ht
      simp only at e1
      have huniq : i ∈ F.acts.map (·.2) ↔ t.params.offset ≤ curr ∧ s.deps.done t.dependsOn curr = .ok true := by
        rw [hact]
        constructor
        · rintro ⟨o', h1, h2⟩
          obtain ⟨a1, t', a2, a3⟩ := isDue_iff.mp h2
          simp only at a1 a2
          rw [ht] at a2
          rw [← Option.some.inj a2] at a3
          have := (hi.waiting _ h1 t ht).1
          simp only at this
          exact ⟨by omega, a3⟩
        · rintro ⟨h1, h2⟩
          exact ⟨o, ho, isDue_iff.mpr ⟨by simp only; omega, t, ht, h2⟩⟩
      have hst : i ∈ F.acts.map (·.2) → t1.start = actStart s.deps t ∧ t1.moved = 0 := by
        intro hc
        rw [et, if_pos hc]
        exact ⟨rfl, e3⟩
      unfold begins
      simp only [hs]
      rw [hp]
      by_cases hoff : t.params.offset ≤ curr
      · rw [if_pos hoff]
        rcases hi.dep_view hsh ht hw with ⟨ha, hm⟩ | ⟨j, d, cp, ha, hne, hcp, hdl, htot, hj⟩
        · simp only [ha]
          have hin : i ∈ F.acts.map (·.2) :=
            huniq.mpr ⟨hoff, Tracker.done_eq_ok.mpr (Or.inl ⟨hm, rfl⟩)⟩
          refine ⟨?_, by simp⟩
          rintro c ⟨⟩
          refine ⟨hin, ?_, (hst hin).2⟩
          rw [(hst hin).1]
          unfold actStart
          rw [hm]
          simp [Tracker.get, e2]
        · simp only [ha]
          have hdn : s.deps.done t.dependsOn curr = .ok true ↔ cp.done curr = true := by
            rw [Tracker.done_eq_ok]
            constructor
            · rintro (⟨h, _⟩ | ⟨_, cp', h, h'⟩)
              · exact absurd h hne
              · rw [hcp] at h; rw [Out.ok.inj h]; exact h'
            · intro h; exact Or.inr ⟨hne, cp, hcp, h⟩
          rcases hj with ⟨c, e, hj, hc1, hc2⟩ | ⟨hj, hc1⟩
          · simp only [hj]
            have hdone : cp.done curr = true ↔ (e + d) % 4294967296 ≤ curr := by
              simp only [Checkpoint.done, Bool.and_eq_true, decide_eq_true_eq, hc1, htot, hc2, hdl, true_and]
            by_cases hle : (e + d) % 4294967296 ≤ curr
            · rw [if_pos hle]
              have hin : i ∈ F.acts.map (·.2) := huniq.mpr ⟨hoff, hdn.mpr (hdone.mpr hle)⟩
              refine ⟨?_, by simp⟩
              rintro c' ⟨⟩
              refine ⟨hin, ?_, (hst hin).2⟩
              rw [(hst hin).1]
              unfold actStart
              rw [hcp]
              simp only
              rw [e2, hc2, hdl]
            · rw [if_neg hle]
              refine ⟨by simp, fun _ hc => hle (hdone.mp (hdn.mp (huniq.mp hc).2))⟩
          · have hnd : cp.done curr ≠ true := by
              simp only [Checkpoint.done, ne_eq, Bool.and_eq_true, decide_eq_true_eq, hc1, htot]
              omega
            cases hsj : σ j with
            | waiting => exact ⟨by simp, fun _ hc => hnd (hdn.mp (huniq.mp hc).2)⟩
            | active c m => exact ⟨by simp, fun _ hc => hnd (hdn.mp (huniq.mp hc).2)⟩
            | finished c e => exact absurd hsj (hj c e)
      · rw [if_neg hoff]
        exact ⟨by simp, fun _ hc => hoff (huniq.mp hc).1⟩
    · have hs : σ i ≠ .waiting := fun h => hwt ((hsh.waiting ht hi).mpr h)
      have hb : begins job curr σ i = none := by
        unfold begins
        cases hsi : σ i with
        | waiting => exact absurd hsi hs
        | active c m => rfl
        | finished c e => rfl
      rw [hb]
      refine ⟨by simp, fun _ hc => ?_⟩
      obtain ⟨o, h1, _⟩ := hact.mp hc
      exact hwt ⟨o, h1⟩
  have hq1 : Waiting F.P.s1 i ↔ Waiting s i ∧ i ∉ F.acts.map (·.2) := by
    rw [hact]
    constructor
    · rintro ⟨o, h⟩
      have := List.mem_filter.mp (F.queuePerm.subset h)
      refine ⟨⟨o, this.1⟩, ?_⟩
      rintro ⟨o', h1, h2⟩
      have e1 := (hi.waiting _ h1 t ht).1
      have e2 := (hi.waiting _ this.1 t ht).1
      simp only at e1 e2
      rw [e1, ← e2] at h2
      rw [h2] at this
      simp at this
    · rintro ⟨⟨o, h⟩, h'⟩
      refine ⟨o, F.queuePerm.symm.subset (List.mem_filter.mpr ⟨h, ?_⟩)⟩
      cases hdu : isDue s.ts s.deps curr (o, i) with
      | false => rfl
      | true => exact absurd ⟨o, h, hdu⟩ h'
  have hl1 : i ∈ F.P.s1.live ↔ i ∈ s.live ∨ i ∈ F.acts.map (·.2) := by rw [F.live1, List.mem_append]
  unfold start
  cases hb : begins job curr σ i with
  | some c =>
    obtain ⟨k1, k2, k3⟩ := key.1 c hb
    exact ⟨hl1.mpr (Or.inr k1), k2, k3⟩
  | none =>
    have hna := key.2 hb
    rw [if_neg hna] at et
    subst et
    have hs := hsh i t1 ht
    cases hsi : σ i with
    | waiting =>
      rw [hsi] at hs
      exact hq1.mpr ⟨hs, hna⟩
    | active c m =>
      rw [hsi] at hs
      exact ⟨hl1.mpr (Or.inl hs.1), hs.2⟩
    | finished c e =>
      rw [hsi] at hs
      obtain ⟨⟨t, a1, a2, a3, a4⟩, a5⟩ := hs
      rw [ht] at a1
      have := Option.some.inj a1
      subst this
      refine ⟨⟨t1, h1, a2, fun h => a3 (hq1.mp h).1, fun h => ?_⟩, a5⟩
      exact (hl1.mp h).elim a4 hna

theorem start_finished {job : Nat → Job} {curr : Nat} {σ : Fluid.State} {j c e : Nat} :
    start job curr σ j = .finished c e ↔ σ j = .finished c e := by
  unfold start
  cases hb : begins job curr σ j with
  | none => rfl
  | some x =>
    refine ⟨fun h => Prog.noConfusion h, fun h => ?_⟩
    unfold begins at hb
    rw [h] at hb
    cases hb

/-- The state between activation and rate computation. -/
theorem StepFacts.view {cfg : SimCfg} {prev curr : Nat} {s s' : Sim} (hi : Inv prev s)
    (F : StepFacts cfg prev curr s s') {σ : Fluid.State} (hsh : Shows s σ) {job : Nat → Job}
    (hd : Describes job s) :
    F.P.s1.ts.length = s.ts.length ∧ F.P.s1.live.Nodup ∧ (∀ i ∈ F.P.s1.live, i < s.ts.length) ∧
    (∀ (i : Nat) (t1 : TState), F.P.s1.ts[i]? = some t1 → t1.params = (job i).t ∧ t1.route = (job i).route) ∧
    (∀ (i : Nat) (t1 : TState), F.P.s1.ts[i]? = some t1 → i ∈ F.P.s1.live →
      t1.start ≤ curr ∧ start job curr σ i = .active t1.start t1.moved) ∧
    ∀ i, i < s.ts.length → i ∉ F.P.s1.live → ∀ c m, start job curr σ i ≠ .active c m := by
  have hsh1 := F.shows_start hi hsh hd
  have hlen1 : F.P.s1.ts.length = s.ts.length := by rw [F.ts1]; simp
  have hndacts : (F.acts.map (·.2)).Nodup := by
    have := (List.nodup_append.mp F.inv1.nodup).2.1
    rw [F.live1, List.nodup_append] at this; exact this.2.1
  refine ⟨hlen1, (List.nodup_append.mp F.inv1.nodup).2.1,
    fun i h => hlen1 ▸ F.inv1.lt i (List.mem_append_right _ h), ?_, ?_, ?_⟩
  · intro i t1 h1
    rw [F.ts1, updIds_getElem? _ _ _ hndacts] at h1
    split at h1
    · obtain ⟨t, ht, e⟩ := Option.map_eq_some_iff.mp h1
      obtain ⟨a, b, _⟩ := hd i t ht
      rw [← e]; exact ⟨a.symm, b.symm⟩
    · obtain ⟨a, b, _⟩ := hd i t1 h1
      exact ⟨a.symm, b.symm⟩
  · intro i t1 h1 hl
    refine ⟨(F.inv1.started i t1 h1 fun hc =>
        (List.nodup_append.mp F.inv1.nodup).2.2 i hc i hl rfl).start_le.2, ?_⟩
    have := hsh1 i t1 h1
    cases hs : start job curr σ i with
    | waiting =>
      rw [hs] at this
      exact absurd rfl ((List.nodup_append.mp F.inv1.nodup).2.2 i (waiting_iff.mp this) i hl)
    | active c m => rw [hs] at this; rw [this.2.1, this.2.2]
    | finished c e =>
      rw [hs] at this
      obtain ⟨⟨_, _, _, _, hna⟩, _⟩ := this
      exact absurd hl hna
  · intro i hlt hnl c m hs
    have h1 : F.P.s1.ts[i]? = some (F.P.s1.ts[i]'(by omega)) := List.getElem?_eq_getElem _
    have := hsh1 i _ h1
    rw [hs] at this
    exact hnl this.1

/-- One timestep, given the speeds. -/
theorem StepFacts.shows_of {cfg : SimCfg} {prev curr : Nat} {s s' : Sim} (hi : Inv prev s)
    (F : StepFacts cfg prev curr s s') {σ : Fluid.State} (hsh : Shows s σ) {job : Nat → Job}
    (hd : Describes job s) {speed : Speed}
    (hbw : ∀ i ∈ F.P.s1.live, ∀ t2, F.P.ts2[i]? = some t2 → t2.bw = speed curr (start job curr σ) i)
    (hc32 : curr < 4294967296) :
    Shows s' (advance cfg.fp.f32.fl job cfg.cpt speed curr (start job curr σ)) := by
  have hsh1 := F.shows_start hi hsh hd
  obtain ⟨hlen1, _, _, hstat1, hact, _⟩ := F.view hi hsh hd
  set σ1 := start job curr σ with hσ1
  have hndacts : (F.acts.map (·.2)).Nodup := by
    have := (List.nodup_append.mp F.inv1.nodup).2.1
    rw [F.live1, List.nodup_append] at this; exact this.2.1
  have hact1 : ∀ (i : Nat) (t1 : TState), F.P.s1.ts[i]? = some t1 → i ∈ F.P.s1.live →
      σ1 i = .active t1.start t1.moved := fun i t1 h1 hl => (hact i t1 h1 hl).2
  intro i t' ht'
  have hilt : i < s.ts.length := by
    rw [← F.len]; exact (List.getElem?_eq_some_iff.mp ht').1
  have h1 : F.P.s1.ts[i]? = some (F.P.s1.ts[i]'(by omega)) := List.getElem?_eq_getElem _
  set t1 := F.P.s1.ts[i]'(by omega) with het1
  by_cases hl : i ∈ F.P.s1.live
  · obtain ⟨t, t2, t'', h2, M⟩ := F.member_rates hl
    have := M.after
    rw [ht'] at this
    have := Option.some.inj this
    subst this
    have e2 := F.only2 i t1 t2 h1 h2
    have hs1 := hact1 i t1 h1 hl
    have es : t2.start = t1.start := by rw [e2]
    have em : t2.moved = t1.moved := by rw [e2]
    have ep : t2.params = (job i).t := by rw [e2]; exact (hstat1 i t1 h1).1
    rw [← es, ← em] at hs1
    obtain ⟨hp, _, hw⟩ := hd i t M.before
    obtain ⟨cyc, mx, hcyc, hmx, hend⟩ := M.ended
    obtain ⟨_, _, hmx⟩ := toSize_ok hmx
    have ed : t2.dependsOn = t.dependsOn := by rw [M.same]
    have hcred : cyc = credit job cfg.cpt curr σ1 i t2.start := by
      have hstart := M.started.start_le.2
      have hplain : toU32 ((curr : Int) - t2.start) = curr - t2.start := toU32_sub hstart hc32
      unfold cyclesActive at hcyc
      simp only [hplain] at hcyc
      unfold credit
      rcases hi.dep_view hsh M.before hw with ⟨ha, hm⟩ | ⟨j, d, cp, ha, hne, hcp, hdl, htot, hj⟩
      · rw [ha]
        have : Tracker.defined t2.dependsOn = false := by rw [ed, hm]; rfl
        rw [this] at hcyc
        simp only [Bool.false_eq_true, if_false] at hcyc
        exact (Out.ok.inj hcyc).symm
      · rw [ha]
        have hdef : Tracker.defined t2.dependsOn = true := by rw [ed]; exact decide_eq_true hne
        rcases hj with ⟨c, e, hj, hc1, hc2⟩ | ⟨hj, hc1⟩
        · simp only [start_finished.mpr hj, hσ1]
          rw [if_pos hdef] at hcyc
          obtain ⟨e', he, hcyc⟩ := Out.bind_eq_ok.mp hcyc
          unfold Tracker.endCycle at he
          rw [if_pos hdef, ed, hcp, Out.bind_ok] at he
          have he := Out.ok.inj he
          rw [hc2] at he
          subst he
          by_cases hcond : t2.start < curr - cfg.cpt ∧
              (cfg.cpt ≤ curr - cfg.cpt ∧ curr - cfg.cpt - cfg.cpt ≤ e ∧ e < curr - cfg.cpt)
          · rw [if_pos hcond] at hcyc
            obtain ⟨_, _, hcyc⟩ := Out.bind_eq_ok.mp hcyc
            obtain ⟨_, _, hcyc⟩ := Out.bind_eq_ok.mp hcyc
            rw [toU32_sub (by omega) hc32] at hcyc
            rw [if_pos (by omega)]
            exact (Out.ok.inj hcyc).symm
          · rw [if_neg hcond] at hcyc
            rw [if_neg (by omega)]
            exact (Out.ok.inj hcyc).symm
        · exfalso
          have hdone := M.started.2.1
          rw [ed] at hdone
          rcases Tracker.done_eq_ok.mp hdone with ⟨h, _⟩ | ⟨_, cp', h, h'⟩
          · exact hne h
          · rw [hcp] at h
            rw [← Out.ok.inj h] at h'
            simp only [Checkpoint.done, Bool.and_eq_true, decide_eq_true_eq] at h'
            omega
    have hv := hbw i hl t2 h2
    unfold advance
    simp only [hs1]
    rw [hcred, hv] at hmx
    rw [← hmx, ← ep]
    rcases hend with ⟨hlt, hlv, e⟩ | ⟨heq, hnl, e, he, e'⟩
    · rw [if_neg (by omega)]
      refine ⟨hlv, by rw [e], by rw [e]⟩
    · rw [if_pos heq]
      refine ⟨⟨t', ht', by rw [e'], fun h => M.notWaiting (waiting_iff.mp h), hnl⟩, by rw [e'], ?_⟩
      unfold transferEnd at he
      simp only at he
      split at he
      · cases he
      · obtain ⟨_, _, he⟩ := toSize_ok he
        rw [e', he, ← hv]
  · have h0 : s.ts[i]? = some s.ts[i] := List.getElem?_eq_getElem hilt
    obtain ⟨t'', h2, e⟩ := F.inactive h0 hl
    rw [ht'] at h2
    have := Option.some.inj h2
    subst this
    have hnacts : i ∉ F.acts.map (·.2) := fun hc => hl (by rw [F.live1]; exact List.mem_append_right _ hc)
    have e1 : t1 = s.ts[i] := by
      have := h1
      rw [F.ts1, updIds_getElem? _ _ _ hndacts, if_neg hnacts, h0] at this
      exact (Option.some.inj this).symm
    have hs1 := hsh1 i t1 h1
    have hq : ∀ j, Waiting s' j ↔ Waiting F.P.s1 j := by
      intro j; unfold Waiting; rw [congrArg Sim.queue F.P.res]
    have hnl' : i ∉ s'.live := by
      intro h
      rw [congrArg Sim.live F.P.res] at h
      exact hl (List.mem_filter.mp h).1
    unfold advance
    cases hsi : σ1 i with
    | waiting =>
      rw [hsi] at hs1
      exact (hq i).mpr hs1
    | active c m =>
      rw [hsi] at hs1
      exact absurd hs1.1 hl
    | finished c e0 =>
      rw [hsi] at hs1
      obtain ⟨⟨t, a1, a2, a3, _⟩, a5, a6⟩ := hs1
      rw [h1] at a1
      have := Option.some.inj a1
      subst this
      refine ⟨⟨t', ht', ?_, fun h => a3 ((hq i).mp h), hnl'⟩, ?_, ?_⟩
      · rw [e]; rw [e1] at a2; exact a2
      · rw [e]; rw [e1] at a5; exact a5
      · rw [e]; rw [e1] at a6; exact a6

theorem Spec.Fluid.Describes.reach {cfg : SimCfg} (hr : RatesOk cfg.rates) {s0 : Sim} (h0 : Inv 0 s0)
    {job : Nat → Job} (hd : Describes job s0) {c : Nat} {s : Sim} (h : Reach cfg s0 c s) : Describes job s := by
  intro i t ht
  obtain ⟨t0, a1, a2, a3, _⟩ := h.static_get hr h0 ht
  obtain ⟨b1, b2, b3⟩ := hd i t0 a1
  exact ⟨b1.trans a2, b2.trans a3, fun j d => (b3 j d).trans (h.waitsFor_iff hr h0 i j d).symm⟩

/-- A run, given the speeds in every timestep. -/
theorem Spec.Reach.shows_of {cfg : SimCfg} (hr : RatesOk cfg.rates) {s0 : Sim} (h0 : Inv 0 s0)
    (hw0 : ∀ i, i < s0.ts.length → Waiting s0 i)
    {job : Nat → Job} (hd : Describes job s0) {speed : Speed}
    (hg : ∀ (c : Nat) (s s' : Sim) (F : StepFacts cfg c (c + cfg.cpt) s s') (σ : Fluid.State), Reach cfg s0 c s →
      Inv c s → s.ts.length = s0.ts.length → Describes job s → Shows s σ → c + cfg.cpt < 4294967296 →
      ∀ i ∈ F.P.s1.live, ∀ t2, F.P.ts2[i]? = some t2 →
        t2.bw = speed (c + cfg.cpt) (Fluid.start job (c + cfg.cpt) σ) i)
    (hcpt : cfg.cpt < 4244967296)
    {c : Nat} {s : Sim} (h : Reach cfg s0 c s) :
    ∃ k, c = k * cfg.cpt ∧ Shows s (run cfg.fp.f32.fl job cfg.cpt speed k) := by
  induction h with
  | start =>
    refine ⟨0, by omega, fun i t ht => ?_⟩
    exact hw0 i (List.getElem?_eq_some_iff.mp ht).1
  | @step c s s' hs hcc hst ih =>
    obtain ⟨k, e, hsh⟩ := ih
    have hi := hs.inv hr h0
    obtain ⟨F⟩ := step_facts hr (Nat.le_add_right _ _) hi hst
    have hlen : s.ts.length = s0.ts.length := by
      have := congrArg List.length (hs.stat hr h0)
      simpa using this
    refine ⟨k + 1, by rw [e]; ring, ?_⟩
    have h1 : c + cfg.cpt = (k + 1) * cfg.cpt := by rw [e]; ring
    have h32 : c + cfg.cpt < 4294967296 := by omega
    show Shows s' (advance _ job cfg.cpt speed ((k + 1) * cfg.cpt) (Fluid.start job ((k + 1) * cfg.cpt) _))
    rw [← h1]
    exact F.shows_of hi hsh (hd.reach hr h0 hs) (hg c s s' F _ hs hi hlen (hd.reach hr h0 hs) hsh h32) h32

/-- A run. -/
theorem Spec.Reach.shows {cfg : SimCfg} (hr : RatesOk cfg.rates) {s0 : Sim} (h0 : Inv 0 s0)
    (hw0 : ∀ i, i < s0.ts.length → Waiting s0 i)
    {job : Nat → Job} (hd : Describes job s0) {speed : Speed}
    (hg : Gives cfg.rates job s0.ts.length cfg.cpt speed) (hcpt : cfg.cpt < 4244967296)
    {c : Nat} {s : Sim} (h : Reach cfg s0 c s) :
    ∃ k, c = k * cfg.cpt ∧ Shows s (run cfg.fp.f32.fl job cfg.cpt speed k) := by
  refine h.shows_of hr h0 hw0 hd (fun c s s' F σ _ hi hlen hds hsh h32 => ?_) hcpt
  obtain ⟨v1, v2, v3, v4, v5, v6⟩ := F.view hi hsh hds
  rw [hlen] at v1 v3 v6
  exact hg _ _ _ _ _ _ _ h32 (Nat.le_add_left _ _) v1 v2 v3 v4 v5 v6 F.P.rates

end NPE
