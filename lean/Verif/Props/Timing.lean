import Verif.Proofs.Timing
import Verif.Proofs.Binary
import Verif.Props.Sample

/-
Properties C18 and C59: when transfers end and how many cycles they are credited.
-/

namespace NPE.Props
open NPE NPE.Spec

/-! ### C18: end cycles -/

/-- C18 is violated (upper bound): a transfer can end after the current cycle.  The third
transfer waits for the first one, which ends at cycle 64; it is activated in the second timestep
with the cycles since 64, but its end is computed from the start of that timestep (128 + 180)
instead of its own start (64 + 180), so that it ends at cycle 308 while the clock stands at 256. -/
theorem C18_violated_end_after_clock :
    Sample.result [Sample.tr 64 0, Sample.tr 1 0, Sample.tr 180 0] false =
      some (256, [(0, 64, 64), (0, 1, 1), (64, 308, 180)]) := by decide +kernel

/-- The device, workload and configuration of the following two witnesses. -/
def ieeeRun (size offset cpt : Nat) (rate : ℚ) : Option (Nat × List (Nat × Nat × Nat)) :=
  let dev : Device := { wormhole .ieee false 1 with rows := 2, cols := 2 }
  let wl := (Workload.addPhase {} { transfers :=
    [Transfer.make size 1 ⟨0, 0, 1⟩ (.unicast ⟨0, 1, 1⟩) rate offset .noc0] }).setGoldenResultCycles
      [(0, (0, 1000))]
  match runLoop (simConfig .ieee dev cpt wl.golden false) ⟨id, id⟩ wl with
  | .ok (.finished s c) => some (c, s.ts.map fun t => (t.start, t.endc, t.moved))
  | _ => none

/-- C18 is violated (upper bound, rounding): three bytes at the `float` nearest to 3/59 bytes per
cycle starting at cycle 69 are complete at cycle 128 but recorded to end at 129. -/
theorem C18_violated_rounding :
    ieeeRun 3 69 128 (Rounding.fl (FP.f32 .ieee) (3 / 59)) = some (128, [(69, 129, 3)]) := by
  decide +kernel

/-- C18 is violated (lower bound): above 2^24 cycles the sum in `float` loses the last bit and the
recorded end (16777216) precedes the start (16777217). -/
theorem C18_violated_end_before_start :
    ieeeRun 1 16777217 16777344 1 = some (16777344, [(16777217, 16777216, 1)]) := by
  decide +kernel

/-- What a timestep does to a transfer that completes in it. -/
theorem completing {cfg : SimCfg} (hr : OnlyBandwidth cfg.rates) {s0 : Sim} (hi0 : Inv 0 s0)
    {c : Nat} {s s' : Sim} (hs : Reach cfg s0 c s) (h : stepSim cfg (c + cfg.cpt) s = .ok s')
    {i : Nat} {t' : TState} (ht' : s'.ts[i]? = some t') (hb : ¬ Completed s i)
    (ha : Completed s' i) :
    ∃ t2 cyc mx e, Started s.deps (c + cfg.cpt) t2 ∧
      cyclesActive cfg.cpt (c + cfg.cpt) c t2 s.deps = .ok cyc ∧
      toSize (cfg.fp.f32.fl (cfg.fp.f32.fl cyc * t2.bw)) = .ok mx ∧
      transferEnd cfg.fp c t2 (min (t2.params.totalBytes - t2.moved) mx) = .ok e ∧
      t' = { t2 with moved := t2.params.totalBytes, endc := e % 4294967296 } := by
  have hi := hs.inv hr hi0
  obtain ⟨F⟩ := step_facts hr (Nat.le_add_right _ _) hi h
  obtain ⟨_, _, _, hnw, hna⟩ := ha
  by_cases hl : i ∈ F.P.s1.live
  · obtain ⟨t, t2, t'', M⟩ := F.member hl
    have e := M.after
    rw [ht'] at e
    have e := Option.some.inj e
    subst e
    obtain ⟨cyc, mx, h1, h2, ⟨_, hc, _⟩ | ⟨_, _, e, h3, h4⟩⟩ := M.ended
    · exact absurd hc hna
    · rw [Nat.add_sub_cancel] at h1 h3
      exact ⟨t2, cyc, mx, e, M.started, h1, h2, h3, h4⟩
  · exfalso
    have hlt : i < s.ts.length := by
      rw [← F.len]; exact (List.getElem?_eq_some_iff.mp ht').1
    have ht := List.getElem?_eq_getElem hlt
    have hnl : i ∉ s.live := fun hc => hl ((F.mem_live1 i).mpr (Or.inl hc))
    have hnq : ¬ Waiting s i := by
      rintro ⟨o, ho⟩
      by_cases hd : isDue s.ts s.deps (c + cfg.cpt) (o, i) = true
      · exact hl ((F.mem_live1 i).mpr (Or.inr ⟨o, ho, hd⟩))
      · exact hnw ⟨o, (F.queue_eq (o, i)).mpr ⟨ho, by simpa using hd⟩⟩
    refine hb ⟨_, ht, hi.finished i _ ht ?_ hnl, hnq, hnl⟩
    intro hc
    obtain ⟨⟨o, j⟩, hx, rfl⟩ := List.mem_map.mp hc
    exact hnq ⟨o, hx⟩

/-- C18, partial.  As long as the clock stays below 2^24 minus two timesteps, for every rounding
and every rate computation a completing transfer ends no earlier than it starts, at most one cycle
(rounding) after the current cycle if it has no dependency, and at most a timestep and one cycle
after it otherwise.  Missing for the full claim: the excess (see the witnesses) and later
clocks. -/
theorem C18_partial (cfg : SimCfg) (hr : OnlyBandwidth cfg.rates) (ho : HashOrder)
    (wl : Workload) (s0 : Sim) (h0 : initSim cfg.fp cfg.dev ho wl = .ok s0)
    (c : Nat) (s s' : Sim) (hs : Reach cfg s0 c s) (h : stepSim cfg (c + cfg.cpt) s = .ok s')
    (i : Nat) (t : TState) (ht : s'.ts[i]? = some t) (hb : ¬ Completed s i) (ha : Completed s' i)
    (hlim : c + 2 * cfg.cpt + 1 ≤ 16777216) :
    t.start ≤ t.endc ∧ t.endc ≤ c + 2 * cfg.cpt + 1 ∧
      (t.dependsOn = -1 → t.endc ≤ c + cfg.cpt + 1) := by
  obtain ⟨t2, cyc, mx, e, h1, h2, h3, h4, h5⟩ := completing hr (init_inv h0) hs h ht hb ha
  have hst := h1.start_le.2
  have hcy := cyclesActive_le h2 hst rfl (by omega)
  obtain ⟨a1, a2⟩ := transferEnd_ok h4 h3 (min_le_right _ _) (by omega)
  subst h5
  simp only
  refine ⟨by omega, by omega, ?_⟩
  intro hd
  rcases cyclesActive_cases h2 hst rfl (by omega) with h | ⟨_, hne, _⟩
  · omega
  · exact absurd hd hne

/-- C18, partial.  In exact arithmetic, for all clocks, a completing transfer ends no earlier than
it starts and, if it has no dependency, not after the current cycle. -/
theorem C18_exact_partial (cfg : SimCfg) (hfp : cfg.fp = .exact) (hr : OnlyBandwidth cfg.rates)
    (ho : HashOrder) (wl : Workload) (s0 : Sim) (h0 : initSim cfg.fp cfg.dev ho wl = .ok s0)
    (c : Nat) (s s' : Sim) (hs : Reach cfg s0 c s) (h : stepSim cfg (c + cfg.cpt) s = .ok s')
    (i : Nat) (t : TState) (ht : s'.ts[i]? = some t) (hb : ¬ Completed s i) (ha : Completed s' i)
    (hlim : c + 2 * cfg.cpt < 4294967296) :
    t.start ≤ t.endc ∧ t.endc ≤ c + 2 * cfg.cpt ∧
      (t.dependsOn = -1 → t.endc ≤ c + cfg.cpt) := by
  obtain ⟨t2, cyc, mx, e, h1, h2, h3, h4, h5⟩ := completing hr (init_inv h0) hs h ht hb ha
  rw [hfp] at h3 h4
  have hst := h1.start_le.2
  have hcy := cyclesActive_le h2 hst rfl (by omega)
  obtain ⟨_, _, a1, a2⟩ := transferEnd_exact (cyc := cyc) h4 h3 (min_le_right _ _)
  subst h5
  simp only
  refine ⟨by omega, by omega, ?_⟩
  intro hd
  rcases cyclesActive_cases h2 hst rfl (by omega) with h | ⟨_, hne, _⟩
  · omega
  · exact absurd hd hne

/-- The bounds of C18 are met with equality by the sample run: the second transfer completes in
the first timestep. -/
example : (Sample.after [Sample.tr 128 0, Sample.tr 1 0, Sample.tr 512 0] false 1 >>= fun s =>
    .ok (s.ts.map fun t => (t.start, t.endc), s.live, s.queue)) =
    .ok ([(0, 128), (0, 1), (0, 0)], [], [(0, 2)]) := by decide +kernel

/-! ### C59: bandwidth accounting -/

/-- C59 is violated: 512 bytes at one byte per cycle are transferred in the 384 cycles from 128 to
512, because the dependency of the third transfer ended exactly at the start of a timestep and the
timestep after it is credited twice. -/
theorem C59_violated :
    Sample.result [Sample.tr 128 0, Sample.tr 1 0, Sample.tr 512 0] false =
      some (512, [(0, 128, 128), (0, 1, 1), (128, 512, 512)]) ∧ (Sample.tr 512 0).injectionRate = 1 := by
  constructor
  · decide +kernel
  · rfl

/-- Cycles that a dependency can add to the credit of a transfer. -/
def extraCredit (cpt : Nat) (t : TState) : ℚ := if t.dependsOn = -1 then 0 else cpt

/-- C59, partial.  In exact arithmetic, for every rate computation that respects the injection
rates, a transfer without dependency never moves more bytes than injection rate times the cycles
since its start; a transfer with a dependency exceeds this by at most one timestep.  For completed
transfers the cycles count up to the recorded end.  Missing for the full claim: the extra
timestep (see the witness) and rounding. -/
theorem C59_partial (cfg : SimCfg) (hfp : cfg.fp = .exact) (hr : OnlyBandwidth cfg.rates)
    (hw : WithinInjectionRate cfg.rates) (hcpt : cfg.cpt ≤ 1000000000)
    (ho : HashOrder) (wl : Workload) (s0 : Sim) (h0 : initSim cfg.fp cfg.dev ho wl = .ok s0)
    (c : Nat) (s : Sim) (hs : Reach cfg s0 c s) (i : Nat) (t : TState) (ht : s.ts[i]? = some t)
    (hrate : 0 ≤ t.params.injectionRate) :
    (Active s i → (t.moved : ℚ) ≤
      t.params.injectionRate * ((c : ℚ) - t.start + extraCredit cfg.cpt t)) ∧
    (Completed s i → (t.moved : ℚ) ≤
      t.params.injectionRate * ((t.endc : ℚ) - t.start + extraCredit cfg.cpt t)) := by
  obtain ⟨I, _⟩ := initSim_ok h0
  have h := credit_inv hfp hr hw hcpt (init_inv h0) I.live
    (fun j hj => I.queue.symm.subset (List.mem_range.mpr hj)) hs i t ht hrate
  have hs0 := slack_le cfg.cpt c s.deps t
  have hmul := mul_le_mul_of_nonneg_left hs0 hrate
  unfold extraCredit
  constructor
  · intro ha
    have := h.1 ha
    rw [mul_add] at this ⊢
    linarith
  · intro hc
    have := h.2 (by obtain ⟨_, _, _, h, _⟩ := hc; rw [← waiting_iff]; exact h)
      (by obtain ⟨_, _, _, _, h⟩ := hc; exact h)
    rw [mul_add] at this ⊢
    exact this

end NPE.Props
