import Verif.Proofs.Init
import Verif.Spec.Engine

/-
One timestep and the whole loop.
-/

namespace NPE
open Spec (Reach)

/-- The parts of a successful timestep. -/
structure StepParts (cfg : SimCfg) (curr : Nat) (s s' : Sim) where
  stats0 : Stats
  s1 : Sim
  ts2 : List TState
  g2 : Grids
  stats2 : Stats
  u : Upd
  ins : s.stats.insertTimestep cfg.golden (curr - cfg.cpt) curr = .ok stats0
  act : activate curr { s with stats := stats0 } = .ok s1
  rates : cfg.rates (curr - cfg.cpt) curr s1.grids s1.ts s1.live = .ok (ts2, g2)
  upd : s1.stats.updateSim cfg.dev g2 s1.live = .ok stats2
  fold : Out.foldlM (updateOne cfg curr (curr - cfg.cpt))
    { ts := ts2, deps := s1.deps, stats := stats2 } s1.live = .ok u
  res : s' = { s1 with
    ts := u.ts, deps := u.deps, stats := u.stats, grids := g2
    live := s1.live.filter fun id => !isComplete u.ts id }

theorem stepSim_parts {cfg : SimCfg} {curr : Nat} {s s' : Sim} (h : stepSim cfg curr s = .ok s') :
    Nonempty (StepParts cfg curr s s') := by
  unfold stepSim at h
  simp only at h
  obtain ⟨stats0, h1, h⟩ := Out.bind_eq_ok.mp h
  obtain ⟨s1, h2, h⟩ := Out.bind_eq_ok.mp h
  obtain ⟨⟨ts2, g2⟩, h3, h⟩ := Out.bind_eq_ok.mp h
  simp only at h
  obtain ⟨stats2, h4, h⟩ := Out.bind_eq_ok.mp h
  obtain ⟨u, h5, h⟩ := Out.bind_eq_ok.mp h
  simp only [Out.pure_eq, Out.ok.injEq] at h
  exact ⟨⟨stats0, s1, ts2, g2, stats2, u, h1, h2, h3, h4, h5, h.symm⟩⟩

theorem Inv.setStats {prev : Nat} {s : Sim} (hi : Inv prev s) (g : Grids) (st : Stats) :
    Inv prev { s with grids := g, stats := st } := by
  obtain ⟨a1, a2, a3, a4, a5, a6, a7, a8, a9, a10, a11⟩ := hi
  exact ⟨a1, a2, a3, a4, a5, a6, a7, a8, a9, a10, a11⟩

/-- Everything known about one timestep. -/
structure StepFacts (cfg : SimCfg) (prev curr : Nat) (s s' : Sim) where
  P : StepParts cfg curr s s'
  /-- state after activation -/
  inv1 : Inv curr P.s1
  acts : List (Nat × Nat)
  actsPerm : acts.Perm (s.queue.filter (isDue s.ts s.deps curr))
  queuePerm : P.s1.queue.Perm (s.queue.filter (fun x => !isDue s.ts s.deps curr x))
  live1 : P.s1.live = s.live ++ acts.map (·.2)
  ts1 : P.s1.ts = updIds (actT s.deps) (acts.map (·.2)) s.ts
  deps1 : P.s1.deps = s.deps
  grids1 : P.s1.grids = s.grids
  stats1 : P.s1.stats = P.stats0
  /-- state after the rate computation -/
  inv2 : Inv curr { P.s1 with ts := P.ts2, grids := P.g2, stats := P.stats2 }
  len2 : P.ts2.length = P.s1.ts.length
  only2 : ∀ (i : Nat) (t t' : TState), P.s1.ts[i]? = some t → P.ts2[i]? = some t' →
    t' = { t with bw := t'.bw }
  inv3 : Inv curr s'

theorem step_facts {cfg : SimCfg} (hr : RatesOk cfg.rates) {prev curr : Nat} (hle : prev ≤ curr)
    {s s' : Sim} (hi : Inv prev s) (h : stepSim cfg curr s = .ok s') :
    Nonempty (StepFacts cfg prev curr s s') := by
  obtain ⟨P⟩ := stepSim_parts h
  have hi0 : Inv prev { s with stats := P.stats0 } := hi.setStats s.grids P.stats0
  obtain ⟨hi1, acts, ha, hq, hs1⟩ := activate_inv hi0 hle P.act
  obtain ⟨hl2, ho2⟩ := hr _ _ _ _ _ _ _ P.rates
  have hi2 := hi1.change hl2 ho2 P.g2 P.stats2
  have hnd : P.s1.live.Nodup := (List.nodup_append.mp hi1.nodup).2.1
  have hi3 := foldUpd_inv P.s1.live
    { P.s1 with ts := P.ts2, grids := P.g2, stats := P.stats2 } P.stats2 P.u hi2 hnd
    (fun i hi => hi) P.fold
  have hf : P.s1.live.filter (fun i => decide (i ∉ P.s1.live) || !isComplete P.u.ts i) =
      P.s1.live.filter fun id => !isComplete P.u.ts id := by
    apply List.filter_congr
    intro i him
    simp [him]
  simp only [hf] at hi3
  refine ⟨⟨P, hi1, acts, ha, hq, by rw [hs1], by rw [hs1], by rw [hs1], by rw [hs1], by rw [hs1],
    hi2, hl2, ho2, ?_⟩⟩
  rw [P.res]
  exact hi3.setStats P.g2 P.u.stats

theorem Spec.Reach.inv {cfg : SimCfg} (hr : RatesOk cfg.rates) {s0 : Sim} (h0 : Inv 0 s0) {c : Nat}
    {s : Sim} (h : Reach cfg s0 c s) : Inv c s := by
  induction h with
  | start => exact h0
  | step _ _ h ih =>
    obtain ⟨F⟩ := step_facts hr (Nat.le_add_right _ _) ih h
    exact F.inv3

/-- The end of the loop is the state after its last timestep. -/
theorem simLoop_reach {cfg : SimCfg} {s0 : Sim} : ∀ (fuel : Nat) (c : Nat) (s : Sim) (e : Ending),
    Reach cfg s0 c s → (c = 0 ∨ (c ≤ 50000000 ∧ ¬ (s.live = [] ∧ s.queue = []))) →
    simLoop cfg fuel (c + cfg.cpt) s = .ok e →
    (∃ s' c', e = .finished s' c' ∧ Reach cfg s0 c' s' ∧ s'.live = [] ∧ s'.queue = [] ∧ c + cfg.cpt ≤ c') ∨
    (∃ s' c', e = .limit s' c' ∧ Reach cfg s0 c' s' ∧ MAX_CYCLE_LIMIT < c' ∧
      ¬ (s'.live = [] ∧ s'.queue = [])) := by
  intro fuel
  induction fuel with
  | zero => intro c s e _ _ h; simp [simLoop] at h
  | succ fuel ih =>
    intro c s e hs hc h
    unfold simLoop at h
    obtain ⟨s', h1, h⟩ := Out.bind_eq_ok.mp h
    have hs' := Reach.step hs hc h1
    by_cases hfin : s'.live = [] ∧ s'.queue = []
    · rw [if_pos hfin] at h
      exact Or.inl ⟨s', _, (Out.ok.inj h).symm, hs', hfin.1, hfin.2, le_refl _⟩
    · rw [if_neg hfin] at h
      by_cases hlim : MAX_CYCLE_LIMIT < c + cfg.cpt
      · rw [if_pos hlim] at h
        exact Or.inr ⟨s', _, (Out.ok.inj h).symm, hs', hlim, hfin⟩
      · rw [if_neg hlim] at h
        rcases ih _ s' e hs' (Or.inr ⟨by unfold MAX_CYCLE_LIMIT at hlim; omega, hfin⟩) h with
          ⟨a, b, h1, h2, h3, h4, h5⟩ | h
        · exact Or.inl ⟨a, b, h1, h2, h3, h4, by omega⟩
        · exact Or.inr h

end NPE
