import Verif.Proofs.Measured
import Verif.Props.Api

/-
Property C150: the measured result of a workload (its golden windows) serves the comparison with the estimate; it does not
influence the estimate.
-/

namespace NPE.Props
open NPE NPE.Spec

/-- The claim: whatever the ends of the measured windows are, a run has the same result, apart from the figures that are
computed from them. -/
def C150_claim (fp : FP) (ho : HashOrder) (api : Api) (wl : Workload) : Prop :=
  ∀ g', SameStarts wl.golden g' →
    (api.runNPE fp ho { wl with golden := g' } >>= fun r => Out.ok (unmeasuredResult r)) =
      (api.runNPE fp ho wl >>= fun r => Out.ok (unmeasuredResult r))

/-- Two transfers, the second of which is issued in cycle 300. -/
def measuredSample (n : Nat) : Workload :=
  { Workload.build [⟨[Transfer.make 4096 1 ⟨0, 0, 1⟩ (.unicast ⟨0, 1, 1⟩) 20 0 .noc0,
      Transfer.make 4096 1 ⟨0, 0, 0⟩ (.unicast ⟨0, 1, 1⟩) 20 300 .noc0], 0⟩] with
    golden := [(0, (0, n)), (-1, (0, n))] }

/-- The claim is violated: if the measured run took 299 cycles instead of 300, the estimate is 205 instead of 505 cycles,
because transfers issued after the measured end are left out. -/
theorem C150_violated :
    cycles (sampleApi.runNPE .exact ⟨id, id⟩ (measuredSample 300)) = some [(0, 505, 505), (-1, 505, 505)] ∧
    cycles (sampleApi.runNPE .exact ⟨id, id⟩ (measuredSample 299)) = some [(0, 205, 205), (-1, 205, 205)] ∧
    ¬ C150_claim .exact ⟨id, id⟩ sampleApi (measuredSample 300) := by
  have h0 : cycles (sampleApi.runNPE .exact ⟨id, id⟩ (measuredSample 300)) = some [(0, 505, 505), (-1, 505, 505)] := by
    decide +kernel
  have h1 : cycles (sampleApi.runNPE .exact ⟨id, id⟩ (measuredSample 299)) = some [(0, 205, 205), (-1, 205, 205)] := by
    decide +kernel
  refine ⟨h0, h1, fun h => ?_⟩
  have key : ∀ x y : Out Result, (x >>= fun r => Out.ok (unmeasuredResult r)) =
      (y >>= fun r => Out.ok (unmeasuredResult r)) → cycles x = cycles y := by
    intro x y hxy
    have e : ∀ x : Out Result, cycles (x >>= fun r => Out.ok (unmeasuredResult r)) = cycles x := by
      intro x
      match x with
      | .ok (.inl r) =>
        simp only [Out.bind_ok, unmeasuredResult, cycles, List.map_map]
        rfl
      | .ok (.inr _) => rfl
      | .exc _ => rfl
      | .std _ => rfl
      | .exit => rfl
      | .ub => rfl
      | .diverge => rfl
    rw [← e, hxy, e]
  have h2 := key _ _ (h (measuredSample 299).golden (by unfold SameStarts; decide +kernel))
  have h3 : { measuredSample 300 with golden := (measuredSample 299).golden } = measuredSample 299 := rfl
  rw [h3, h0, h1] at h2
  exact absurd h2 (by decide)

/-- A consequence: with twice the time between transfers the estimate is lower, not higher, because issue cycles are scaled
but measured windows are not. -/
theorem C150_scaled :
    cycles (sampleApi.runNPE .exact ⟨id, id⟩ (measuredSample 300)) = some [(0, 505, 505), (-1, 505, 505)] ∧
    cycles (({ sampleApi with cfg := { sampleApi.cfg with scaleSchedule := 2 } } : Api).runNPE .exact ⟨id, id⟩
      (measuredSample 300)) = some [(0, 205, 205), (-1, 205, 205)] := by decide +kernel

/-- C150 as far as it holds: if the ends of the measured windows lie on the same side of every issue cycle, then the ends
have no influence on the result of a run (estimates, statistics of all timesteps and devices, error codes, exceptions,
undefined behaviour), apart from the measured cycles themselves, the prediction error, and the two utilisations over the
measured time.  Missing: ends that differ in which transfers they leave out (`C150_violated`). -/
theorem C150_partial (fp : FP) (ho : HashOrder) (api : Api) (wl : Workload) (g' : GoldenMap)
    (h : SameStarts wl.golden g')
    (hi : ∀ w w', api.preprocess fp wl = .ok w → api.preprocess fp { wl with golden := g' } = .ok w' →
      SameIssued w.golden w'.golden w.transfers) :
    (api.runNPE fp ho { wl with golden := g' } >>= fun r => Out.ok (unmeasuredResult r)) =
      (api.runNPE fp ho wl >>= fun r => Out.ok (unmeasuredResult r)) := by
  symm
  refine Concur.toEq ((runNPE_unmeasured fp ho api h hi).bind fun r r' hr => .ok ?_)
  exact hr.symm

/-- C150 for what happens to the transfers, without restriction: any two tables of windows for the same chips (with other
starts, too) give the same starts, ends, bandwidths, bytes moved and routes of all transfers, the same dependencies and the
same demands at the end, or the same failure. -/
theorem C150_transfers (fp : FP) (ho : HashOrder) (dev : Device) (cpt : Nat) (hc : 0 < cpt) (en : Bool) (wl : Workload)
    (g' : GoldenMap) (hg : ∀ d, (wl.golden.lookup d).isSome = (g'.lookup d).isSome)
    (hw : ∀ d ∈ dev.deviceIDs ++ [MESH_DEVICE], (wl.golden.lookup d).isSome) :
    (runSingle fp dev ho cpt en { wl with golden := g' } >>= fun r =>
        Out.ok (r.map (fun p => { p.1 with stats := [] }) id)) =
      (runSingle fp dev ho cpt en wl >>= fun r => Out.ok (r.map (fun p => { p.1 with stats := [] }) id)) := by
  symm
  refine Concur.toEq ((runSingle_windows ho (by omega) en hg hw).bind fun r r' hr => .ok ?_)
  rcases hr with ⟨s, s', st, st', rfl, rfl, h⟩ | ⟨e, rfl, rfl⟩
  · rw [h]
    rfl
  · rfl

/-- C150 for workload files: the golden cycles of the file have no influence on the estimate, as long as no transfer is
issued later.  Missing: as for `C150_partial`; scaled schedules. -/
theorem C150_file_partial (fp : FP) (ho : HashOrder) (api : Api) (hs : api.cfg.scaleSchedule = 0) (wl : Workload) (n n' : Nat)
    (hn : n < 4294967296) (hn' : n' < 4294967296) (ht : ∀ t ∈ wl.transfers, t.offset ≤ n ∧ t.offset ≤ n') :
    (api.runNPE fp ho (wl.setGoldenResultCycles [(0, 0, n')]) >>= fun r => Out.ok (unmeasuredResult r)) =
      (api.runNPE fp ho (wl.setGoldenResultCycles [(0, 0, n)]) >>= fun r => Out.ok (unmeasuredResult r)) := by
  have hg := file_windows hn (wl := wl.setGoldenResultCycles [(0, 0, n)]) (Or.inl rfl)
  have hg' := file_windows hn' (wl := wl.setGoldenResultCycles [(0, 0, n')]) (Or.inl rfl)
  refine C150_partial fp ho api (wl.setGoldenResultCycles [(0, 0, n)]) (wl.setGoldenResultCycles [(0, 0, n')]).golden ?_ ?_
  · rw [hg, hg']
    rfl
  · intro w w' h h'
    obtain ⟨h1, h2⟩ := preprocess_issue hs h
    obtain ⟨_, h2'⟩ := preprocess_issue hs h'
    rw [file_windows hn h2, file_windows hn' h2']
    intro t hm d hd v v' hv hv'
    obtain ⟨t0, h0, e0⟩ := h1 t hm
    have hb : v.2 = n := by
      simp only [List.lookup_cons, List.lookup_nil] at hv
      split at hv
      · cases hv; rfl
      · split at hv
        · cases hv; rfl
        · cases hv
    have hb' : v'.2 = n' := by
      simp only [List.lookup_cons, List.lookup_nil] at hv'
      split at hv'
      · cases hv'; rfl
      · split at hv'
        · cases hv'; rfl
        · cases hv'
    rw [e0, hb, hb']
    have := ht t0 h0
    exact ⟨fun _ => this.2, fun _ => this.1⟩

/-- The measured time has influence on the error and the utilisations only. -/
example : cycles (sampleApi.runNPE .exact ⟨id, id⟩ (measuredSample 400)) = some [(0, 505, 505), (-1, 505, 505)] ∧
    SameIssued (measuredSample 300).golden (measuredSample 400).golden (measuredSample 300).transfers ∧
    ¬ SameIssued (measuredSample 300).golden (measuredSample 299).golden (measuredSample 300).transfers := by
  refine ⟨by decide +kernel, ?_, fun h => ?_⟩
  · intro t ht d hd w w' h1 h2
    have ht' : t.offset ≤ 300 ∧ t.src.dev = 0 := by
      have : ∀ t ∈ (measuredSample 300).transfers, t.offset ≤ 300 ∧ t.src.dev = 0 := by decide +kernel
      exact this t ht
    have : (measuredSample 300).golden.lookup d = some (0, 300) ∧ (measuredSample 400).golden.lookup d = some (0, 400) := by
      rcases hd with rfl | rfl
      · rw [ht'.2]; decide +kernel
      · decide +kernel
    rw [this.1] at h1
    rw [this.2] at h2
    cases h1
    cases h2
    have := ht'.1
    constructor <;> intro _ <;> simp only <;> omega
  · have := h ((measuredSample 300).transfers[1]'(by decide +kernel)) (List.getElem_mem _) 0 (by decide +kernel) (0, 300) (0, 299)
      (by decide +kernel) (by decide +kernel)
    revert this
    decide +kernel

/-- The start and end cycles of the transfers of a run. -/
def spans (wl : Workload) : Option (List (Nat × Nat)) :=
  match runSingle .exact Sample.dev ⟨id, id⟩ 128 true wl with
  | .ok (.inl r) => some (r.1.ts.map fun t => (t.start, t.endc))
  | _ => none

/-- Windows with another start, and windows from files. -/
example :
    spans (measuredSample 300) = some [(0, 205), (300, 505)] ∧
    spans { measuredSample 300 with golden := [(-1, (350, 17)), (0, (5, 6))] } = some [(0, 205), (300, 505)] ∧
    cycles (sampleApi.runNPE .exact ⟨id, id⟩ ((measuredSample 0).setGoldenResultCycles [(0, 0, 300)])) =
      cycles (sampleApi.runNPE .exact ⟨id, id⟩ ((measuredSample 0).setGoldenResultCycles [(0, 0, 12345)])) := by
  decide +kernel

end NPE.Props
