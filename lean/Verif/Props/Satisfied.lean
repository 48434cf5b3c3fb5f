import Verif.Model.EndCheck
import Verif.Props.Chain

/-
Property C158: when a simulation ends, every dependency is satisfied.
-/

namespace NPE.Props
open NPE NPE.Spec

/-- Every checkpoint has a provider. -/
theorem provider_exists {cfg : SimCfg} (hr : OnlyBandwidth cfg.rates) {ho : HashOrder} {wl : Workload} {s0 : Sim}
    (h0 : initSim cfg.fp cfg.dev ho wl = .ok s0) {c : Nat} {s : Sim} (hs : Reach cfg s0 c s) {k : Nat} {cp : Checkpoint}
    (hk : s.deps[k]? = some cp) : ∃ (j : Nat) (t : TState), s.ts[j]? = some t ∧ (k : Int) ∈ t.requiredBy := by
  have hi0 := init_inv h0
  obtain ⟨_, ts, h1, h2⟩ := initSim_ok h0
  obtain ⟨hf, hd⟩ := init_fresh h1
  obtain ⟨e1, e2, hE, _, _⟩ := gen_ok hf hd h2
  have hdel := hs.delay hr hi0 k
  rw [hk, e2] at hdel
  obtain ⟨cp0, hcp0, _⟩ := Option.map_eq_some_iff.mp hdel.symm
  have hlt : k < (allEdges cfg.fp cfg.dev ho.buckets ts).length := by
    have := (List.getElem?_eq_some_iff.mp hcp0).1
    unfold tkOf at this
    rwa [List.length_map] at this
  obtain ⟨t, ht, hkt⟩ := List.mem_flatMap.mp ((mem_flatMap_prov hE (ts := ts) (j := (k : Int))).mpr ⟨by omega, by omega⟩)
  rw [← e1] at ht
  obtain ⟨j, hj⟩ := List.mem_iff_getElem?.mp ht
  obtain ⟨t', ht', hst⟩ := map_stat_get (hs.stat hr hi0).symm hj
  refine ⟨j, t', ht', ?_⟩
  have : t.requiredBy = t'.requiredBy := congrArg (·.2.2.2) hst
  rwa [← this]

/-- C158.  At any time of a run each checkpoint belongs to exactly one transfer, it counts one completion if this transfer has
completed and none otherwise, and it then has the end of this transfer. -/
theorem C158_counts (cfg : SimCfg) (hr : OnlyBandwidth cfg.rates) (ho : HashOrder) (wl : Workload) (s0 : Sim)
    (h0 : initSim cfg.fp cfg.dev ho wl = .ok s0) (c : Nat) (s : Sim) (hs : Reach cfg s0 c s) (k : Nat) (cp : Checkpoint)
    (hk : s.deps[k]? = some cp) :
    ∃ (j : Nat) (t : TState), s.ts[j]? = some t ∧ (k : Int) ∈ t.requiredBy ∧
      (∀ (j' : Nat) (t' : TState), s.ts[j']? = some t' → (k : Int) ∈ t'.requiredBy → j' = j) ∧ cp.total = 1 ∧
      (Completed s j → cp.completed = 1 ∧ cp.endc = t.endc) ∧ (¬ Completed s j → cp.completed = 0 ∧ cp.endc = 0) := by
  have hi := hs.inv hr (init_inv h0)
  obtain ⟨j, t, ht, hkt⟩ := provider_exists hr h0 hs hk
  obtain ⟨cp', hcp', h1, h2, h3⟩ := hi.tracker j t ht k hkt
  rw [Int.toNat_natCast, hk] at hcp'
  have := Option.some.inj hcp'
  subst this
  have hq : Waiting s j ↔ j ∈ s.queue.map (·.2) := by
    rw [List.mem_map]
    exact ⟨fun ⟨o, h⟩ => ⟨_, h, rfl⟩, fun ⟨x, h, e⟩ => ⟨x.1, by rw [← e]; exact h⟩⟩
  refine ⟨j, t, ht, hkt, fun j' t' ht' hk' => provider_unique hi.rbNodup ht' ht hk' hkt, h1, ?_, ?_⟩
  · rintro ⟨_, _, _, hw, ha⟩
    exact h3 ⟨fun h => hw (hq.mpr h), ha⟩
  · intro hn
    refine h2 ?_
    by_contra hc
    rw [not_or] at hc
    exact hn ⟨t, ht, hi.finished j t ht hc.1 hc.2, fun h => hc.1 (hq.mp h), hc.2⟩

/-- C158.  When the loop ends normally, each checkpoint is satisfied and the error about dependencies is not logged. -/
theorem C158_satisfied (cfg : SimCfg) (hr : OnlyBandwidth cfg.rates) (ho : HashOrder) (wl : Workload) (s : Sim) (c : Nat)
    (h : runLoop cfg ho wl = .ok (.finished s c)) :
    unsatisfied s.deps = false ∧ ∀ (k : Nat) (cp : Checkpoint), s.deps[k]? = some cp → cp.completed = cp.total := by
  have hall := (C14_all_delivered cfg hr ho wl s c h).2
  unfold runLoop at h
  obtain ⟨s0, h0, h⟩ := Out.bind_eq_ok.mp h
  rcases simLoop_reach (cfg := cfg) (s0 := s0) simFuel 0 s0 _ .start (Or.inl rfl) (by rw [Nat.zero_add]; exact h) with
    ⟨s', c', he, hs, _⟩ | ⟨s', c', he, _⟩
  · obtain ⟨rfl, rfl⟩ := Ending.finished.inj he
    have key : ∀ (k : Nat) (cp : Checkpoint), s.deps[k]? = some cp → cp.completed = cp.total := by
      intro k cp hk
      obtain ⟨j, t, ht, _, _, h1, h2, _⟩ := C158_counts cfg hr ho wl s0 h0 c s hs k cp hk
      obtain ⟨a1, _, _, a4, a5⟩ := hall j t ht
      rw [h1, (h2 ⟨t, ht, a1, a4, a5⟩).1]
    refine ⟨?_, key⟩
    have key' : ∀ cp ∈ s.deps, cp.completed = cp.total := fun cp hcp => by
      obtain ⟨k, hk⟩ := List.mem_iff_getElem?.mp hcp
      exact key k cp hk
    unfold unsatisfied Tracker.sanityCheck Tracker.allComplete
    rw [Bool.or_eq_false_iff, Bool.not_eq_false', Bool.not_eq_false', List.all_eq_true, List.all_eq_true]
    exact ⟨fun cp hcp => by simp [key' cp hcp], fun cp hcp => by simp [key' cp hcp]⟩
  · cases he

/-- C158.  The check is exact: at any time of a run it finds something if and only if a transfer on which another one depends
has not completed. -/
theorem C158_exact (cfg : SimCfg) (hr : OnlyBandwidth cfg.rates) (ho : HashOrder) (wl : Workload) (s0 : Sim)
    (h0 : initSim cfg.fp cfg.dev ho wl = .ok s0) (c : Nat) (s : Sim) (hs : Reach cfg s0 c s) :
    unsatisfied s.deps = true ↔ ∃ (j : Nat) (t : TState), s.ts[j]? = some t ∧ t.requiredBy ≠ [] ∧ ¬ Completed s j := by
  have key : ∀ cp ∈ s.deps, (cp.completed = 1 ∨ cp.completed = 0) ∧ cp.total = 1 := by
    intro cp hcp
    obtain ⟨k, hk⟩ := List.mem_iff_getElem?.mp hcp
    obtain ⟨j, t, ht, _, _, h1, h2, h3⟩ := C158_counts cfg hr ho wl s0 h0 c s hs k cp hk
    by_cases hc : Completed s j
    · exact ⟨Or.inl (h2 hc).1, h1⟩
    · exact ⟨Or.inr (h3 hc).1, h1⟩
  have e : unsatisfied s.deps = true ↔ ∃ cp ∈ s.deps, cp.completed = 0 := by
    unfold unsatisfied Tracker.sanityCheck Tracker.allComplete
    rw [Bool.or_eq_true, Bool.not_eq_true', Bool.not_eq_true', List.all_eq_false, List.all_eq_false]
    constructor
    · rintro (⟨cp, hcp, h⟩ | ⟨cp, hcp, h⟩)
      · obtain ⟨h1, h2⟩ := key cp hcp
        refine ⟨cp, hcp, ?_⟩
        rcases h1 with h1 | h1
        · simp [h1, h2] at h
        · exact h1
      · obtain ⟨h1, h2⟩ := key cp hcp
        refine ⟨cp, hcp, ?_⟩
        rcases h1 with h1 | h1
        · simp [h1, h2] at h
        · exact h1
    · rintro ⟨cp, hcp, h⟩
      refine Or.inr ⟨cp, hcp, ?_⟩
      have := (key cp hcp).2
      simp [h, this]
  rw [e]
  constructor
  · rintro ⟨cp, hcp, hz⟩
    obtain ⟨k, hk⟩ := List.mem_iff_getElem?.mp hcp
    obtain ⟨j, t, ht, hkt, _, _, h2, _⟩ := C158_counts cfg hr ho wl s0 h0 c s hs k cp hk
    refine ⟨j, t, ht, List.ne_nil_of_mem hkt, fun hc => ?_⟩
    have := (h2 hc).1
    omega
  · rintro ⟨j, t, ht, hne, hn⟩
    obtain ⟨k, hk⟩ := List.exists_mem_of_ne_nil _ hne
    obtain ⟨cp, hcp, _, h2, _⟩ := (hs.inv hr (init_inv h0)).tracker j t ht k hk
    refine ⟨cp, List.mem_of_getElem? hcp, ?_⟩
    refine (h2 ?_).1
    by_contra hc
    rw [not_or] at hc
    have hq : Waiting s j ↔ j ∈ s.queue.map (·.2) := by
      rw [List.mem_map]
      exact ⟨fun ⟨o, h⟩ => ⟨_, h, rfl⟩, fun ⟨x, h, e⟩ => ⟨x.1, by rw [← e]; exact h⟩⟩
    exact hn ⟨t, ht, (hs.inv hr (init_inv h0)).finished j t ht hc.1 hc.2, fun h => hc.1 (hq.mp h), hc.2⟩

/-- Five transfers of 900 bytes in one queue: three dependencies, which are satisfied at the end; the second one at cycle 900
with the end of the second transfer. -/
example : (match endOf (List.replicate 5 (Sample.tr 900 0)) false with
    | some s => decide (s.deps.map (fun cp => (cp.completed, cp.total, cp.endc)) = [(1, 1, 900), (1, 1, 900), (1, 1, 1800)]) &&
        !unsatisfied s.deps
    | none => false) = true := by decide +kernel

/-- A dependency that nobody has satisfied, and one that was satisfied twice. -/
example : unsatisfied [⟨1, 1, 7, 0⟩, ⟨0, 1, 0, 5⟩] = true ∧ unsatisfied [⟨2, 1, 7, 0⟩] = true := by decide

end NPE.Props
