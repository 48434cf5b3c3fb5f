import Verif.Proofs.NoExit

/-
"Waits for" along a run.
-/

namespace NPE
open NPE.Spec

/-- Parameters and routes never change. -/
theorem Spec.Reach.static {cfg : SimCfg} (hr : RatesOk cfg.rates) {s0 : Sim} (h0 : Inv 0 s0)
    {c : Nat} {s : Sim} (h : Reach cfg s0 c s) (i : Nat) :
    s.ts[i]?.map (fun t => (t.params, t.route, t.dependsOn, t.requiredBy)) =
      s0.ts[i]?.map (fun t => (t.params, t.route, t.dependsOn, t.requiredBy)) := by
  have h1 := congrArg (·[i]?) (h.stat hr h0)
  simp only [List.getElem?_map] at h1
  exact h1

theorem Spec.Reach.static_get {cfg : SimCfg} (hr : RatesOk cfg.rates) {s0 : Sim} (h0 : Inv 0 s0)
    {c : Nat} {s : Sim} (h : Reach cfg s0 c s) {i : Nat} {t : TState} (ht : s.ts[i]? = some t) :
    ∃ t0, s0.ts[i]? = some t0 ∧ t0.params = t.params ∧ t0.route = t.route ∧
      t0.dependsOn = t.dependsOn ∧ t0.requiredBy = t.requiredBy := by
  have h1 := h.static hr h0 i
  rw [ht, Option.map_some] at h1
  obtain ⟨t0, h2, h3⟩ := Option.map_eq_some_iff.mp h1.symm
  simp only [Prod.mk.injEq] at h3
  exact ⟨t0, h2, h3⟩

theorem Spec.Reach.static_get' {cfg : SimCfg} (hr : RatesOk cfg.rates) {s0 : Sim} (h0 : Inv 0 s0)
    {c : Nat} {s : Sim} (h : Reach cfg s0 c s) {i : Nat} {t0 : TState} (ht : s0.ts[i]? = some t0) :
    ∃ t, s.ts[i]? = some t ∧ t.params = t0.params ∧ t.route = t0.route ∧
      t.dependsOn = t0.dependsOn ∧ t.requiredBy = t0.requiredBy := by
  have h1 := h.static hr h0 i
  rw [ht, Option.map_some] at h1
  obtain ⟨t, h2, h3⟩ := Option.map_eq_some_iff.mp h1
  simp only [Prod.mk.injEq] at h3
  exact ⟨t, h2, h3⟩

/-- Two states with the same parameters and routes. -/
def SameStatic (a b : Sim) : Prop :=
  ∀ (i : Nat) (t : TState), a.ts[i]? = some t →
    ∃ t', b.ts[i]? = some t' ∧ t'.params = t.params ∧ t'.route = t.route

theorem Earlier.congr {a b : Sim} (h : SameStatic a b) {i j : Nat} (he : Earlier a j i) :
    Earlier b j i := by
  obtain ⟨tj, ti, h1, h2, h3⟩ := he
  obtain ⟨tj', h1', e1, _⟩ := h _ _ h1
  obtain ⟨ti', h2', e2, _⟩ := h _ _ h2
  exact ⟨tj', ti', h1', h2', by rw [e1, e2]; exact h3⟩

/-- A lane relation that only reads parameters and routes. -/
def StaticLane (lane : TState → TState → Prop) : Prop :=
  ∀ t u t' u' : TState, t'.params = t.params → t'.route = t.route → u'.params = u.params →
    u'.route = u.route → lane t u → lane t' u'

theorem sameLane_static (dev : Device) : StaticLane (SameLane dev) := by
  intro t u t' u' h1 h2 h3 h4 h
  exact (SameLane.congr h1.symm h2.symm h3.symm h4.symm).mp h

theorem LaneMates.congr {lane : TState → TState → Prop} (hl : StaticLane lane) {a b : Sim}
    (h : SameStatic a b) {i j : Nat} (he : LaneMates lane a j i) : LaneMates lane b j i := by
  obtain ⟨tj, ti, h1, h2, h3⟩ := he
  obtain ⟨tj', h1', e1, e2⟩ := h _ _ h1
  obtain ⟨ti', h2', e3, e4⟩ := h _ _ h2
  exact ⟨tj', ti', h1', h2', hl _ _ _ _ e1 e2 e3 e4 h3⟩

theorem TwoBefore.congr {lane : TState → TState → Prop} (hl : StaticLane lane) {a b : Sim}
    (h : SameStatic a b) (h' : SameStatic b a) {i j : Nat} (he : TwoBefore lane a j i) :
    TwoBefore lane b j i := by
  obtain ⟨h1, h2, k, ⟨h3, h4, h5⟩, h6⟩ := he
  refine ⟨LaneMates.congr hl h h1, Earlier.congr h h2, k, ⟨LaneMates.congr hl h h3, Earlier.congr h h4,
    Earlier.congr h h5⟩, ?_⟩
  rintro y ⟨h7, h8, h9⟩
  exact h6 y ⟨LaneMates.congr hl h' h7, Earlier.congr h' h8, Earlier.congr h' h9⟩

theorem Spec.Reach.sameStatic {cfg : SimCfg} (hr : RatesOk cfg.rates) {s0 : Sim} (h0 : Inv 0 s0)
    {c : Nat} {s : Sim} (h : Reach cfg s0 c s) : SameStatic s s0 ∧ SameStatic s0 s := by
  constructor
  · intro i t ht
    obtain ⟨t0, h1, h2, h3, _⟩ := h.static_get hr h0 ht
    exact ⟨t0, h1, h2, h3⟩
  · intro i t ht
    obtain ⟨t0, h1, h2, h3, _⟩ := h.static_get' hr h0 ht
    exact ⟨t0, h1, h2, h3⟩

/-- A transfer that waits for another one and has started: the other one is completed and its end
plus the delay determines the start. -/
theorem Inv.waits_started {prev : Nat} {s : Sim} (hi : Inv prev s) {i j d : Nat}
    (hw : WaitsFor s i j d) (hn : ¬ Waiting s i) {ti : TState} (hti : s.ts[i]? = some ti) :
    Completed s j ∧ ∃ tj, s.ts[j]? = some tj ∧ (tj.endc + d) % 4294967296 ≤ prev ∧
      ti.start = max ti.params.offset ((tj.endc + d) % 4294967296) := by
  obtain ⟨ti', tj, cp, h1, h2, h3, h4, h5, h6⟩ := hw
  rw [hti] at h1
  have := Option.some.inj h1
  subst this
  rw [waiting_iff] at hn
  obtain ⟨_, hdone, hst⟩ := hi.started i ti hti hn
  have hne : ti.dependsOn ≠ -1 := by omega
  obtain ⟨p, tp, hp, hm, hpq, hpl⟩ := hi.done_provider hti hne hdone
  have hpj := provider_unique hi.rbNodup hp h2 hm h3
  subst hpj
  rw [hp] at h2
  have := Option.some.inj h2
  subst this
  obtain ⟨cp', hcp', _, _, hfin⟩ := hi.tracker p tp hp _ hm
  rw [h5] at hcp'
  have := Option.some.inj hcp'
  subst this
  obtain ⟨_, he⟩ := hfin ⟨hpq, hpl⟩
  have hget : s.deps.get ti.dependsOn = .ok cp := Tracker.get_eq_ok.mpr ⟨h4, h5⟩
  refine ⟨⟨tp, hp, hi.finished p tp hp hpq hpl, by rw [waiting_iff]; exact hpq, hpl⟩, tp, hp, ?_, ?_⟩
  · rcases Tracker.done_eq_ok.mp hdone with ⟨hd, _⟩ | ⟨_, cp', hcp', hd⟩
    · exact absurd hd hne
    · rw [hget] at hcp'
      have := Out.ok.inj hcp'
      subst this
      simp only [Checkpoint.done, Bool.and_eq_true, decide_eq_true_eq] at hd
      rw [← he, ← h6]; exact hd.2
  · rw [hst, actStart]
    simp only
    rw [hget, ← he, ← h6]

/-- Either no dependency, or exactly one transfer to wait for. -/
theorem Inv.waits_cases {prev : Nat} {s : Sim} (hi : Inv prev s) {i : Nat} {ti : TState}
    (hti : s.ts[i]? = some ti) :
    (ti.dependsOn = -1 ∧ ∀ j d, ¬ WaitsFor s i j d) ∨
    ∃ j d, WaitsFor s i j d ∧ ∀ j' d', WaitsFor s i j' d' → j' = j ∧ d' = d := by
  by_cases hne : ti.dependsOn = -1
  · refine Or.inl ⟨hne, ?_⟩
    rintro j d ⟨ti', _, _, h1, _, _, h4, _⟩
    rw [hti] at h1
    rw [← Option.some.inj h1, hne] at h4
    omega
  · obtain ⟨p, tp, hp, hm⟩ := hi.covered i ti hti hne
    obtain ⟨cp, hcp, _⟩ := hi.tracker p tp hp _ hm
    refine Or.inr ⟨p, cp.delay, ⟨ti, tp, cp, hti, hp, hm, hi.rbValid p tp hp _ hm, hcp, rfl⟩, ?_⟩
    rintro j d ⟨ti', tj, cp', h1, h2, h3, _, h5, h6⟩
    rw [hti] at h1
    have := Option.some.inj h1
    subst this
    rw [hcp] at h5
    have := Option.some.inj h5
    subst this
    exact ⟨provider_unique hi.rbNodup h2 hp h3 hm, h6.symm⟩

/-- Delays of a run. -/
theorem delay_le {cfg : SimCfg} {ho : HashOrder} {wl : Workload} {s0 : Sim}
    (h0 : initSim cfg.fp cfg.dev ho wl = .ok s0) (hb : ∀ l, (ho.buckets l).Perm l)
    (hsz : ∀ t ∈ wl.transfers, t.packetSize < 4294967296) {i j d : Nat}
    (hw : WaitsFor s0 i j d) : d ≤ 1000000000 := by
  obtain ⟨ts, I⟩ := init0 h0
  obtain ⟨ti, _, _, hti, _⟩ := id hw
  by_cases hp : HasParent ti.params
  · exact groupDelay_le ((I.waits_group hti hp j d).mp hw).2
      (hsz _ ((initSim_ok h0).1.slots i ti hti).1)
  · have := ((I.waits_niu hb hti hp j d).mp hw).1
    omega

end NPE
