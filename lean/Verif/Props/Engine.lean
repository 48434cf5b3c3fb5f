import Verif.Proofs.Rates
import Verif.Props.Sample

/-
Properties C13-C18 of the simulation loop.

`cfg.rates` is the rate computation of a timestep.  Most theorems hold for every rate
computation that only writes bandwidths (`OnlyBandwidth`), so for every congestion model; the
device models of the tool are instances (`C14_device_models`).
-/

namespace NPE.Props
open NPE NPE.Spec

/-- The rate computations of all device models, with and without congestion, are covered by the
theorems below. -/
theorem C14_device_models (fp : FP) (dev : Device) (congestion : Bool) (cpt : Nat)
    (golden : GoldenMap) : OnlyBandwidth (simConfig fp dev cpt golden congestion).rates :=
  computeRates_ok fp dev congestion

/-! ### C13: termination -/

theorem simLoop_fuel (cfg : SimCfg) : ∀ (n k curr : Nat) (s : Sim),
    50000000 < curr + n * cfg.cpt →
    simLoop cfg (n + 1 + k) curr s = simLoop cfg (n + 1) curr s := by
  intro n
  induction n with
  | zero =>
    intro k curr s h
    have e : 0 + 1 + k = k + 1 := by omega
    rw [e, Nat.zero_add]
    simp only [simLoop]
    congr 1
    funext s'
    have h2 : MAX_CYCLE_LIMIT < curr := by unfold MAX_CYCLE_LIMIT; omega
    rw [if_pos h2, if_pos h2]
  | succ n ih =>
    intro k curr s h
    have e : n + 1 + 1 + k = (n + 1 + k) + 1 := by omega
    rw [e, simLoop, simLoop]
    congr 1
    funext s'
    rw [ih k (curr + cfg.cpt) s' (by rw [Nat.add_mul] at h; omega)]

/-- C13.  The loop performs at most `50,000,000 / cycles_per_timestep + 1` timesteps: more
iterations never change the outcome. -/
theorem C13_iterations (cfg : SimCfg) (hpos : 0 < cfg.cpt) (s : Sim) (k : Nat) :
    simLoop cfg (50000000 / cfg.cpt + 1 + k) cfg.cpt s =
      simLoop cfg (50000000 / cfg.cpt + 1) cfg.cpt s := by
  apply simLoop_fuel
  have := Nat.div_add_mod 50000000 cfg.cpt
  have h2 := Nat.mod_lt 50000000 hpos
  rw [Nat.mul_comm] at this
  omega

theorem simLoop_ne_diverge (cfg : SimCfg) (s0 : Sim)
    (hstep : ∀ c s, Reach cfg s0 c s → stepSim cfg (c + cfg.cpt) s ≠ .diverge) :
    ∀ (n c : Nat) (s : Sim), Reach cfg s0 c s →
    (c = 0 ∨ (c ≤ 50000000 ∧ ¬ (s.live = [] ∧ s.queue = []))) →
    50000000 < c + cfg.cpt + n * cfg.cpt → simLoop cfg (n + 1) (c + cfg.cpt) s ≠ .diverge := by
  intro n
  induction n with
  | zero =>
    intro c s hs hc h
    rw [simLoop]
    cases hst : stepSim cfg (c + cfg.cpt) s with
    | ok s' =>
      rw [Out.bind_ok]
      have h2 : MAX_CYCLE_LIMIT < c + cfg.cpt := by unfold MAX_CYCLE_LIMIT; omega
      rw [if_pos h2]
      split <;> simp
    | diverge => exact absurd hst (hstep c s hs)
    | _ => simp
  | succ n ih =>
    intro c s hs hc h
    rw [simLoop]
    cases hst : stepSim cfg (c + cfg.cpt) s with
    | ok s' =>
      rw [Out.bind_ok]
      split
      · simp
      · rename_i hfin
        split
        · simp
        · rename_i hlim
          refine ih (c + cfg.cpt) s' (.step hs hc hst) (Or.inr ⟨?_, hfin⟩) ?_
          · unfold MAX_CYCLE_LIMIT at hlim; omega
          · rw [Nat.add_mul] at h; omega
    | diverge => exact absurd hst (hstep c s hs)
    | _ => simp

/-- C13.  With a positive timestep the loop ends (the model's iteration budget is never the
reason for an outcome), provided that no single timestep runs forever. -/
theorem C13_loop_ends (cfg : SimCfg) (hpos : 0 < cfg.cpt) (s0 : Sim)
    (hstep : ∀ c s, Reach cfg s0 c s → stepSim cfg (c + cfg.cpt) s ≠ .diverge) :
    simLoop cfg simFuel cfg.cpt s0 ≠ .diverge := by
  have h := simLoop_ne_diverge cfg s0 hstep (MAX_CYCLE_LIMIT + 1) 0 s0 .start (Or.inl rfl) (by
    unfold MAX_CYCLE_LIMIT
    have : 50000001 * 1 ≤ 50000001 * cfg.cpt := Nat.mul_le_mul_left _ hpos
    omega)
  rw [Nat.zero_add] at h
  exact h

/-- C13.  Clock values are multiples of the timestep, at most `50,000,000 / cpt + 1` of them, and
the 32-bit clock never wraps around. -/
theorem C13_clock (cfg : SimCfg) (hpos : 0 < cfg.cpt) (h32 : cfg.cpt < 4294967296) (s0 : Sim)
    (c : Nat) (s : Sim) (h : Reach cfg s0 c s) :
    (∃ k, c = k * cfg.cpt ∧ k ≤ 50000000 / cfg.cpt + 1) ∧ c ≤ max 100000000 cfg.cpt ∧
      c < 4294967296 := by
  have h1 : (∃ k, c = k * cfg.cpt ∧ k ≤ 50000000 / cfg.cpt + 1) ∧ c ≤ max 100000000 cfg.cpt := by
    induction h with
    | start => exact ⟨⟨0, by simp, Nat.zero_le _⟩, by omega⟩
    | step _ hc _ ih =>
      rename_i c' sa sb _ _
      obtain ⟨⟨k, hk, _⟩, hle⟩ := ih
      rcases hc with hc | ⟨hc, _⟩
      · subst hc
        exact ⟨⟨1, by simp, Nat.le_add_left _ _⟩, by omega⟩
      · refine ⟨⟨k + 1, by rw [Nat.add_mul, ← hk]; omega, ?_⟩, ?_⟩
        · have : k ≤ 50000000 / cfg.cpt := by
            rw [Nat.le_div_iff_mul_le hpos, ← hk]; exact hc
          exact Nat.add_le_add_right this 1
        · rcases Nat.eq_zero_or_pos k with h0 | h0
          · subst h0; omega
          · have h1 : 1 * cfg.cpt ≤ k * cfg.cpt := Nat.mul_le_mul_right _ h0
            omega
  refine ⟨h1.1, h1.2, ?_⟩
  have := h1.2
  omega

/-- C13.  A run ends in a state of the run, either with nothing left to do or, with something left, at the
first timestep that ends after cycle 50,000,000; the clock at the end is a positive multiple of the
timestep. -/
theorem C13_run_ends_on_clock (cfg : SimCfg) (hpos : 0 < cfg.cpt) (h32 : cfg.cpt < 4294967296) (ho : HashOrder)
    (wl : Workload) (e : Ending) (h : runLoop cfg ho wl = .ok e) :
    ∃ s0 s c k, initSim cfg.fp cfg.dev ho wl = .ok s0 ∧ Reach cfg s0 c s ∧ c = k * cfg.cpt ∧ 0 < k ∧
      k ≤ 50000000 / cfg.cpt + 1 ∧
      ((e = .finished s c ∧ s.live = [] ∧ s.queue = []) ∨
       (e = .limit s c ∧ ¬ (s.live = [] ∧ s.queue = []) ∧ 50000000 < c)) := by
  unfold runLoop at h
  obtain ⟨s0, h0, h⟩ := Out.bind_eq_ok.mp h
  have key := simLoop_reach (cfg := cfg) (s0 := s0) simFuel 0 s0 e .start (Or.inl rfl)
    (by rw [Nat.zero_add]; exact h)
  rcases key with ⟨s, c, he, hr, h1, h2, h3⟩ | ⟨s, c, he, hr, h1, h2⟩
  · obtain ⟨⟨k, hk, hk2⟩, _⟩ := C13_clock cfg hpos h32 s0 c s hr
    refine ⟨s0, s, c, k, h0, hr, hk, ?_, hk2, Or.inl ⟨he, h1, h2⟩⟩
    rcases Nat.eq_zero_or_pos k with rfl | hp
    · omega
    · exact hp
  · obtain ⟨⟨k, hk, hk2⟩, _⟩ := C13_clock cfg hpos h32 s0 c s hr
    unfold MAX_CYCLE_LIMIT at h1
    refine ⟨s0, s, c, k, h0, hr, hk, ?_, hk2, Or.inr ⟨he, h2, h1⟩⟩
    rcases Nat.eq_zero_or_pos k with rfl | hp
    · omega
    · exact hp

/-- The transfers of the cases below: the second and the fourth wait for the first and the second
one. -/
def four : List Transfer := [Sample.tr 300 0, Sample.tr 400 100, Sample.tr 60 0, Sample.tr 50 700]

/-- Six timesteps of 128 cycles. -/
example : (Sample.result four false).map (·.1) = some (6 * 128) := by decide +kernel

/-- A transfer without bandwidth reaches the cycle limit in the second timestep of 30,000,000
cycles. -/
example : (match runLoop (simConfig .exact Sample.dev 30000000 [(0, (0, 1000)), (-1, (0, 1000))] false)
      ⟨id, id⟩ (Sample.wl [{ Sample.tr 300 0 with injectionRate := 0 }]) with
    | .ok (.limit _ c) => some c
    | _ => none) = some 60000000 := by decide +kernel

/-! ### C14: everything has been transferred -/

/-- C14.  When the loop ends normally, the simulated transfers are those of the workload, and
each of them was started, moved exactly its total number of bytes and is neither waiting nor
active. -/
theorem C14_all_delivered (cfg : SimCfg) (hr : OnlyBandwidth cfg.rates) (ho : HashOrder)
    (wl : Workload) (s : Sim) (c : Nat) (h : runLoop cfg ho wl = .ok (.finished s c)) :
    (s.ts.map (·.params)).Perm wl.transfers ∧
    ∀ (i : Nat) (t : TState), s.ts[i]? = some t →
      t.moved = t.params.totalBytes ∧ t.params.offset ≤ t.start ∧ t.start ≤ c ∧
      ¬ Waiting s i ∧ ¬ Active s i := by
  unfold runLoop at h
  obtain ⟨s0, h0, h⟩ := Out.bind_eq_ok.mp h
  have hi0 := init_inv h0
  have hR := simLoop_reach (s0 := s0) simFuel 0 s0 _ .start (Or.inl rfl)
    (by rw [Nat.zero_add]; exact h)
  rcases hR with ⟨s', c', he, hs, hl, hq, _⟩ | ⟨_, _, he, _⟩
  · obtain ⟨rfl, rfl⟩ := Ending.finished.inj he
    have hi := hs.inv hr hi0
    constructor
    · obtain ⟨_, ts, h1, h2⟩ := initSim_ok h0
      obtain ⟨hf, hd⟩ := init_fresh h1
      obtain ⟨e1, _⟩ := gen_ok hf hd h2
      have hst := hs.stat hr hi0
      have hp : s.ts.map (·.params) = s0.ts.map (·.params) := by
        have := congrArg (List.map (·.1)) hst
        rw [List.map_map, List.map_map] at this
        exact this
      have hp0 : s0.ts.map (·.params) = ts.map (·.params) := by
        rw [e1]
        apply List.ext_getElem?
        intro i
        unfold tsOf
        rw [List.getElem?_map, List.getElem?_map, List.getElem?_mapIdx, Option.map_map]
        rfl
      rw [hp, hp0]
      exact init_perm h1
    · intro i t ht
      have hnq : i ∉ s.queue.map (·.2) := by rw [hq]; simp
      have hnl : i ∉ s.live := by rw [hl]; simp
      obtain ⟨a1, a2, a3⟩ := hi.started i t ht hnq
      have a4 : t.params.offset ≤ t.start ∧ t.start ≤ c := by
        rw [a3]
        unfold actStart
        simp only
        rcases Tracker.done_eq_ok.mp a2 with ⟨hd, _⟩ | ⟨_, cp, hcp, hd⟩
        · rw [hd]
          simp only [Tracker.get, Int.reduceNeg, Int.reduceLT, if_true]
          omega
        · rw [hcp]
          simp only [Checkpoint.done, Bool.and_eq_true, decide_eq_true_eq] at hd
          simp only
          omega
      refine ⟨hi.finished i t ht hnq hnl, a4.1, a4.2, ?_, hnl⟩
      rintro ⟨o, ho⟩
      rw [hq] at ho
      simp at ho
  · simp at he

/-- Final start, end and bytes. -/
example : Sample.result four false =
    some (768, [(0, 300, 300), (300, 700, 400), (0, 60, 60), (700, 750, 50)]) := by decide +kernel

/-! ### C15: bytes -/

/-- C15.  In every timestep of every run the bytes moved by a transfer never decrease, never
exceed its total, and only change when the transfer is active (neither still waiting after the
timestep's activations nor completed before). -/
theorem C15_bytes_monotone (cfg : SimCfg) (hr : OnlyBandwidth cfg.rates) (ho : HashOrder)
    (wl : Workload) (s0 : Sim) (h0 : initSim cfg.fp cfg.dev ho wl = .ok s0)
    (c : Nat) (s s' : Sim) (hs : Reach cfg s0 c s) (h : stepSim cfg (c + cfg.cpt) s = .ok s')
    (i : Nat) (t : TState) (ht : s.ts[i]? = some t) :
    ∃ t', s'.ts[i]? = some t' ∧ t'.params = t.params ∧
      t.moved ≤ t'.moved ∧ t'.moved ≤ t.params.totalBytes ∧
      (Waiting s' i → t'.moved = 0) ∧ (Completed s i → t'.moved = t.moved) := by
  have hi := hs.inv hr (init_inv h0)
  obtain ⟨F⟩ := step_facts hr (Nat.le_add_right _ _) hi h
  by_cases hl : i ∈ F.P.s1.live
  · obtain ⟨t0, t2, t', M⟩ := F.member hl
    have e := M.before
    rw [ht] at e
    have e := Option.some.inj e
    have hp : t2.params = t.params := by rw [M.same, e]
    have hm : t2.moved = t.moved := by rw [M.same, e]
    have hle := hi.le i t ht
    refine ⟨t', M.after, ?_, ?_, ?_, ?_, ?_⟩
    · obtain ⟨_, _, _, _, ⟨_, _, e'⟩ | ⟨_, _, _, _, e'⟩⟩ := M.ended <;> rw [e'] <;> exact hp
    · obtain ⟨_, _, _, _, ⟨h1, _, e'⟩ | ⟨h1, _, _, _, e'⟩⟩ := M.ended <;> rw [e'] <;> simp only <;>
        rw [← hm] <;> omega
    · obtain ⟨_, _, _, _, ⟨h1, _, e'⟩ | ⟨h1, _, _, _, e'⟩⟩ := M.ended <;> rw [e'] <;> simp only <;>
        rw [← hp] <;> omega
    · rintro ⟨o, ho⟩
      exact absurd (List.mem_map_of_mem (f := (·.2)) ho) M.notWaiting
    · rintro ⟨_, _, _, hw, ha⟩
      rcases (F.mem_live1 i).mp hl with hc | ⟨o, hc, _⟩
      · exact absurd hc ha
      · exact absurd ⟨o, hc⟩ hw
  · obtain ⟨t', h1, h2⟩ := F.inactive ht hl
    refine ⟨t', h1, by rw [h2], by rw [h2], by rw [h2]; exact hi.le i t ht, ?_, fun _ => by rw [h2]⟩
    rintro ⟨o, ho⟩
    rw [h2]
    have := (F.queue_eq (o, i)).mp ho
    exact (hi.waiting _ this.1 t ht).2.2

/-- Bytes after one, two and three timesteps. -/
example : ([1, 2, 3].map fun n => (Sample.view (Sample.after four false n)).map fun v => v.1.map (·.2)) =
    [some [128, 0, 60, 0], some [256, 0, 60, 0], some [300, 0, 60, 0]] := by decide +kernel

/-! ### C16: start cycles -/

/-- C16.  When a waiting transfer is activated, its start cycle is its scheduled offset if it has
no dependency; otherwise the transfer it waits for is completed and the start cycle is the
maximum of the offset and that completion plus the delay (a 32-bit sum).  The start cycle is
never after the current cycle. -/
theorem C16_start_cycle (cfg : SimCfg) (hr : OnlyBandwidth cfg.rates) (ho : HashOrder)
    (wl : Workload) (s0 : Sim) (h0 : initSim cfg.fp cfg.dev ho wl = .ok s0)
    (c : Nat) (s s' : Sim) (hs : Reach cfg s0 c s) (h : stepSim cfg (c + cfg.cpt) s = .ok s')
    (i : Nat) (hw : Waiting s i) (hw' : ¬ Waiting s' i) :
    ∃ t, s'.ts[i]? = some t ∧ t.start ≤ c + cfg.cpt ∧
      ((t.dependsOn = -1 ∧ t.start = t.params.offset) ∨
       (∃ j tj d, WaitsFor s i j d ∧ s.ts[j]? = some tj ∧ Completed s j ∧
          t.start = max t.params.offset ((tj.endc + d) % 4294967296))) := by
  have hi := hs.inv hr (init_inv h0)
  obtain ⟨F⟩ := step_facts hr (Nat.le_add_right _ _) hi h
  obtain ⟨o, ho'⟩ := hw
  have hdue : isDue s.ts s.deps (c + cfg.cpt) (o, i) = true := by
    by_contra hc
    exact hw' ⟨o, (F.queue_eq (o, i)).mpr ⟨ho', by simpa using hc⟩⟩
  have hl : i ∈ F.P.s1.live := (F.mem_live1 i).mpr (Or.inr ⟨o, ho', hdue⟩)
  obtain ⟨t, t2, t', M⟩ := F.member hl
  obtain ⟨hofs, t0, ht0, hdone⟩ := isDue_iff.mp hdue
  have e := M.before
  simp only at ht0
  rw [ht0] at e
  have e := Option.some.inj e
  subst e
  obtain ⟨w1, w2, _⟩ := hi.waiting _ ho' t0 ht0
  have hnl : i ∉ s.live := fun hc => (List.nodup_append.mp hi.nodup).2.2 i
    (List.mem_map_of_mem (f := (·.2)) ho') i hc rfl
  have hst : t'.start = actStart s.deps t0 := by
    obtain ⟨_, _, _, _, ⟨_, _, e'⟩ | ⟨_, _, _, _, e'⟩⟩ := M.ended <;> rw [e'] <;> exact M.start.2 hnl
  have hdep : t'.dependsOn = t0.dependsOn := by
    obtain ⟨_, _, _, _, ⟨_, _, e'⟩ | ⟨_, _, _, _, e'⟩⟩ := M.ended <;> rw [e'] <;> simp only <;>
      rw [M.same]
  have hpar : t'.params = t0.params := by
    obtain ⟨_, _, _, _, ⟨_, _, e'⟩ | ⟨_, _, _, _, e'⟩⟩ := M.ended <;> rw [e'] <;> simp only <;>
      rw [M.same]
  refine ⟨t', M.after, ?_⟩
  rcases Tracker.done_eq_ok.mp hdone with ⟨hd, _⟩ | ⟨hne, cp, hcp, hd⟩
  · have : t'.start = t0.params.offset := by
      rw [hst, actStart, hd]
      simpa [Tracker.get] using w2
    refine ⟨by rw [this]; simp only at w1 hofs; omega, Or.inl ⟨by rw [hdep, hd], by rw [this, hpar]⟩⟩
  · simp only [Checkpoint.done, Bool.and_eq_true, decide_eq_true_eq] at hd
    have : t'.start = max t0.params.offset ((cp.endc + cp.delay) % 4294967296) := by
      rw [hst, actStart, hcp, w2]
    refine ⟨by rw [this]; simp only at w1 hofs; omega, Or.inr ?_⟩
    obtain ⟨p, tp, hp, hj, hpq, hpl⟩ := hi.done_provider ht0 hne hdone
    obtain ⟨cp', hcp', _, _, hfin⟩ := hi.tracker p tp hp _ hj
    have hcp2 := Tracker.get_eq_ok.mp hcp
    rw [hcp'] at hcp2
    have e := Option.some.inj hcp2.2
    subst e
    refine ⟨p, tp, cp'.delay, ⟨t0, tp, cp', ht0, hp, hj, hcp2.1, hcp', rfl⟩, hp,
      ⟨tp, hp, hi.finished p tp hp hpq hpl, ?_, hpl⟩, ?_⟩
    · rintro ⟨o', ho''⟩
      exact hpq (List.mem_map_of_mem (f := (·.2)) ho'')
    · rw [this, hpar, (hfin ⟨hpq, hpl⟩).2]

/-- The second transfer has offset 100 but starts at 300, the end of the first one; the fourth one
starts at its offset 700. -/
example : (Sample.view (Sample.after four false 6)).map (fun v => v.1.map (·.1)) =
    some [0, 300, 0, 700] := by decide +kernel

/-! ### C17: activation is exact -/

/-- The dependency of transfer `i` is satisfied at cycle `c`: it has none, or the transfer it
waits for is completed and its delay has passed. -/
def DepSatisfied (s : Sim) (c : Nat) (i : Nat) : Prop :=
  (∃ t, s.ts[i]? = some t ∧ t.dependsOn = -1) ∨
  ∃ j tj d, WaitsFor s i j d ∧ s.ts[j]? = some tj ∧ Completed s j ∧
    (tj.endc + d) % 4294967296 ≤ c

/-- C17.  In every timestep exactly those waiting transfers become active whose scheduled offset
has been reached and whose dependency is satisfied; nothing else leaves or enters the waiting
set. -/
theorem C17_activation_exact (cfg : SimCfg) (hr : OnlyBandwidth cfg.rates) (ho : HashOrder)
    (wl : Workload) (s0 : Sim) (h0 : initSim cfg.fp cfg.dev ho wl = .ok s0)
    (c : Nat) (s s' : Sim) (hs : Reach cfg s0 c s) (h : stepSim cfg (c + cfg.cpt) s = .ok s')
    (i : Nat) :
    (Waiting s' i → Waiting s i) ∧
    (Waiting s i → (¬ Waiting s' i ↔ (∃ t, s.ts[i]? = some t ∧ t.params.offset ≤ c + cfg.cpt) ∧
      DepSatisfied s (c + cfg.cpt) i)) := by
  have hi := hs.inv hr (init_inv h0)
  obtain ⟨F⟩ := step_facts hr (Nat.le_add_right _ _) hi h
  constructor
  · rintro ⟨o, hw⟩
    exact ⟨o, ((F.queue_eq (o, i)).mp hw).1⟩
  · rintro ⟨o, hw⟩
    have hilt : i < s.ts.length := hi.lt i (List.mem_append_left _ (List.mem_map_of_mem (f := (·.2)) hw))
    have ht : s.ts[i]? = some s.ts[i] := List.getElem?_eq_getElem hilt
    obtain ⟨w1, w2, _⟩ := hi.waiting _ hw _ ht
    have hiff : ¬ Waiting s' i ↔ isDue s.ts s.deps (c + cfg.cpt) (o, i) = true := by
      constructor
      · intro hw'
        by_contra hc
        exact hw' ⟨o, (F.queue_eq (o, i)).mpr ⟨hw, by simpa using hc⟩⟩
      · rintro hd ⟨o', hw'⟩
        obtain ⟨h1, h2⟩ := (F.queue_eq (o', i)).mp hw'
        obtain ⟨w1', _⟩ := hi.waiting _ h1 _ ht
        have : o' = o := by simp only at w1 w1'; omega
        subst this
        rw [h2] at hd
        simp at hd
    rw [hiff, isDue_iff]
    simp only at w1 ⊢
    constructor
    · rintro ⟨hofs, t, ht', hd⟩
      refine ⟨⟨_, ht, by omega⟩, ?_⟩
      rcases Tracker.done_eq_ok.mp hd with ⟨hd', _⟩ | ⟨hne, cp, hcp, hd'⟩
      · exact Or.inl ⟨t, ht', hd'⟩
      · obtain ⟨p, tp, hp, hj, hpq, hpl⟩ := hi.done_provider ht' hne hd
        obtain ⟨cp', hcp', _, _, hfin⟩ := hi.tracker p tp hp _ hj
        have hcp2 := Tracker.get_eq_ok.mp hcp
        rw [hcp'] at hcp2
        have e := Option.some.inj hcp2.2
        subst e
        simp only [Checkpoint.done, Bool.and_eq_true, decide_eq_true_eq] at hd'
        refine Or.inr ⟨p, tp, cp'.delay, ⟨t, tp, cp', ht', hp, hj, hcp2.1, hcp', rfl⟩, hp,
          ⟨tp, hp, hi.finished p tp hp hpq hpl, ?_, hpl⟩, ?_⟩
        · rintro ⟨o', ho''⟩
          exact hpq (List.mem_map_of_mem (f := (·.2)) ho'')
        · rw [← (hfin ⟨hpq, hpl⟩).2]; exact hd'.2
    · rintro ⟨⟨t, ht', hofs⟩, hd⟩
      rw [ht] at ht'
      have e := Option.some.inj ht'
      subst e
      refine ⟨by omega, _, ht, ?_⟩
      rcases hd with ⟨t, ht', hd⟩ | ⟨j, tj, d, ⟨ti, tj', cp, hti, htj', hmem, h0', hcp, hdel⟩, htj,
        ⟨_, _, _, hjw, hja⟩, hle⟩
      · rw [ht] at ht'
        have e := Option.some.inj ht'
        subst e
        exact Tracker.done_eq_ok.mpr (Or.inl ⟨hd, rfl⟩)
      · rw [ht] at hti
        have e := Option.some.inj hti
        subst e
        rw [htj] at htj'
        have e := Option.some.inj htj'
        subst e
        have hjq : j ∉ s.queue.map (·.2) := by
          intro hc
          obtain ⟨⟨o', j'⟩, hx, rfl⟩ := List.mem_map.mp hc
          exact hjw ⟨o', hx⟩
        obtain ⟨cp', hcp', htot, _, hfin⟩ := hi.tracker j tj htj _ hmem
        rw [hcp] at hcp'
        have e := Option.some.inj hcp'
        subst e
        obtain ⟨f1, f2⟩ := hfin ⟨hjq, hja⟩
        refine Tracker.done_eq_ok.mpr (Or.inr ⟨by omega, cp, Tracker.get_eq_ok.mpr ⟨h0', hcp⟩, ?_⟩)
        simp only [Checkpoint.done, Bool.and_eq_true, decide_eq_true_eq]
        exact ⟨by omega, by rw [f2, hdel]; exact hle⟩

/-- C17.  At all times every transfer is in exactly one of the states waiting, active and
completed, and the active list has no duplicates. -/
theorem C17_partition (cfg : SimCfg) (hr : OnlyBandwidth cfg.rates) (ho : HashOrder)
    (wl : Workload) (s0 : Sim) (h0 : initSim cfg.fp cfg.dev ho wl = .ok s0)
    (c : Nat) (s : Sim) (hs : Reach cfg s0 c s) :
    s.live.Nodup ∧ (s.queue.map (·.2)).Nodup ∧
    ∀ i, i < wl.transfers.length →
      (Waiting s i ∧ ¬ Active s i ∧ ¬ Completed s i) ∨
      (¬ Waiting s i ∧ Active s i ∧ ¬ Completed s i) ∨
      (¬ Waiting s i ∧ ¬ Active s i ∧ Completed s i) := by
  have hi0 := init_inv h0
  have hi := hs.inv hr hi0
  have hlen : s.ts.length = wl.transfers.length := by
    have := congrArg List.length (hs.stat hr hi0)
    rw [List.length_map, List.length_map] at this
    rw [this, (initSim_ok h0).1.len]
  have hnd := List.nodup_append.mp hi.nodup
  refine ⟨hnd.2.1, hnd.1, ?_⟩
  intro i hilt
  have ht : s.ts[i]? = some (s.ts[i]'(by omega)) := List.getElem?_eq_getElem (by omega)
  by_cases hw : i ∈ s.queue.map (·.2)
  · left
    obtain ⟨⟨o, j⟩, hx, rfl⟩ := List.mem_map.mp hw
    exact ⟨⟨o, hx⟩, fun hc => hnd.2.2 _ hw _ hc rfl, fun hc => by
      obtain ⟨_, _, _, h, _⟩ := hc; exact h ⟨o, hx⟩⟩
  · have hnw : ¬ Waiting s i := by
      rintro ⟨o, ho⟩
      exact hw (List.mem_map_of_mem (f := (·.2)) ho)
    by_cases hl : i ∈ s.live
    · exact Or.inr (Or.inl ⟨hnw, hl, fun hc => by obtain ⟨_, _, _, _, h⟩ := hc; exact h hl⟩)
    · exact Or.inr (Or.inr ⟨hnw, hl, _, ht, hi.finished i _ ht hw hl, hnw, hl⟩)

/-- Waiting and active transfers after none, one, four and six timesteps. -/
example : ([0, 1, 4, 6].map fun n => (Sample.view (Sample.after four false n)).map (·.2)) =
    [some ([3, 1, 2, 0], []), some ([3, 1], [0]), some ([3], [1]), some ([], [])] := by decide +kernel

end NPE.Props
