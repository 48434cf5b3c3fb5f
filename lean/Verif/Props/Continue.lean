import Verif.Proofs.Continue
import Verif.Proofs.FluidCrowd
import Verif.Props.Mono

/-
Property C151: transfers that are scheduled later have no influence on what happened before.
-/

namespace NPE.Props
open NPE NPE.Spec NPE.Spec.Fluid

/-- C151 is violated: a transfer of 740 bytes ends at cycle 37; with a further one that is scheduled for cycle 100, it
ends at cycle 46.  The further one starts within the same timestep, all of which it slows down.  Scheduled for the end of
the timestep or later, it has no influence. -/
theorem C151_violated :
    times Sample.dev ⟨id, id⟩ [feed 740] true = some (128, [(0, 37)]) ∧
    times Sample.dev ⟨id, id⟩ [feed 740, { feed 3600 with offset := 100 }] true = some (384, [(0, 46), (100, 286)]) ∧
    times Sample.dev ⟨id, id⟩ [feed 740, { feed 3600 with offset := 128 }] true = some (384, [(0, 37), (128, 308)]) := by
  decide +kernel

/-- C151 without congestion model, with any rounding: transfers that are scheduled later have no influence at all on
starts and ends of the others. -/
theorem C151_alone (fp : FP) (dev : Device) (cpt : Nat) (hpos : 0 < cpt) (hcpt : cpt < 4244967296)
    (golden golden' : GoldenMap) (links : List Int → List Int) (b b' : List BucketKey → List BucketKey)
    (hb : ∀ l, (b l).Perm l) (hb' : ∀ l, (b' l).Perm l) (wl wl' : Workload) (s0 s0' : Sim)
    (h0 : initSim fp dev ⟨links, b⟩ wl = .ok s0) (h0' : initSim fp dev ⟨links, b'⟩ wl' = .ok s0')
    (f : Nat → Nat) (from_ : Nat) (hC : Continues s0 s0' f from_) (hP : ParentsFound s0)
    (e : Ending) (s' : Sim) (c' : Nat) (h : runLoop (simConfig fp dev cpt golden false) ⟨links, b⟩ wl = .ok e)
    (h' : runLoop (simConfig fp dev cpt golden' false) ⟨links, b'⟩ wl' = .ok (.finished s' c')) :
    ∃ s c, e = .finished s c ∧ c ≤ c' ∧ ∀ (i : Nat) (t : TState), s.ts[i]? = some t →
      ∃ t', s'.ts[f i]? = some t' ∧ t'.start = t.start ∧ t'.endc = t.endc := by
  obtain ⟨job, hd⟩ := describes_exists h0
  obtain ⟨job', hd'⟩ := describes_exists h0'
  have F := late_frame h0 h0' hb hb' rfl hC hP hd hd'
  exact same_times (speed := alone fp dev job) (speed' := alone fp dev job')
    (fun i hi => embed_lt (hC.embeds (dev := dev)).toContains hi)
    (F.run_eq fun _ _ _ _ i hi => F.alone_eq fp dev _ _ _ i hi)
    ((C111_alone fp dev cpt hpos hcpt golden _ wl s0 h0 job hd).2 e h)
    ((C111_alone fp dev cpt hpos hcpt golden' _ wl' s0' h0' job' hd').2 _ h') (finished_le h')

example : times Sample.dev ⟨id, id⟩ [feed 740, feed 1000, feed 1000] false = some (256, [(0, 37), (0, 50), (37, 178)]) ∧
    times Sample.dev ⟨id, id⟩ [feed 740, { feed 3600 with offset := 1 }, feed 1000, feed 1000] false =
      some (256, [(0, 37), (50, 308), (0, 50), (37, 178)]) := by decide +kernel

/-- C151 with congestion model and any rounding, for whole timesteps: whenever both runs reach the end of a timestep
before the cycle at which the first of the further transfers is scheduled, each of the other transfers is as far in one
run as in the other one, the same transfers are active, in the same order, and the further ones wait.  (Missing: the
timestep in which the first of the further transfers is scheduled, see `C151_violated`.) -/
theorem C151_partial (fp : FP) (dev : Device) (hdev : DeviceOk dev) (hT : TableOk fp dev.tbt) (cpt : Nat)
    (hpos : 0 < cpt) (hcpt : cpt < 4244967296)
    (golden golden' : GoldenMap) (links : List Int → List Int) (b b' : List BucketKey → List BucketKey)
    (hb : ∀ l, (b l).Perm l) (hb' : ∀ l, (b' l).Perm l) (wl wl' : Workload)
    (hw : ∀ t ∈ wl.transfers, 0 ≤ t.injectionRate ∧ RectsOk t)
    (hw' : ∀ t ∈ wl'.transfers, 0 ≤ t.injectionRate ∧ RectsOk t) (s0 s0' : Sim)
    (h0 : initSim fp dev ⟨links, b⟩ wl = .ok s0) (h0' : initSim fp dev ⟨links, b'⟩ wl' = .ok s0')
    (f : Nat → Nat) (from_ : Nat) (hC : Continues s0 s0' f from_) (hP : ParentsFound s0)
    (c : Nat) (hc : c < from_) (s s' : Sim) (h : Reach (simConfig fp dev cpt golden true) s0 c s)
    (h' : Reach (simConfig fp dev cpt golden' true) s0' c s') :
    (∀ i, i < s0.ts.length → AsFar s s' i (f i)) ∧
    (∀ i', i' < s0'.ts.length → (∀ i, i < s0.ts.length → f i ≠ i') → Waiting s' i') ∧ s'.live = s.live.map f := by
  obtain ⟨job, hd⟩ := describes_exists h0
  obtain ⟨job', hd'⟩ := describes_exists h0'
  have F := late_frame h0 h0' hb hb' rfl hC hP hd hd'
  have hn : ∀ i, i < s0.ts.length → f i < s0'.ts.length := fun i hi => embed_lt (hC.embeds (dev := dev)).toContains hi
  obtain ⟨L, l1, l2, l3⟩ := late_queue h0 h0' hC
  obtain ⟨k, k1, k2, k3, k4, _⟩ := follows_plan hdev hT hw h0 hpos hcpt hd h
  obtain ⟨k', k1', k2', k3', k4', _⟩ := follows_plan hdev hT hw' h0' hpos hcpt hd' h'
  have hk : k' = k := by
    rw [k1] at k1'
    exact (Nat.eq_of_mul_eq_mul_right hpos k1').symm
  subst hk
  obtain ⟨p1, p2, p3, p4⟩ := F.plan_late hn fp dev cpt l3 l1 k' (by omega)
  rw [← l2] at p1 p2 p3
  have len : s.ts.length = s0.ts.length := by
    have := congrArg List.length (h.stat (computeRates_ok fp dev true) (init_inv h0))
    simpa using this
  have len' : s'.ts.length = s0'.ts.length := by
    have := congrArg List.length (h'.stat (computeRates_ok fp dev true) (init_inv h0'))
    simpa using this
  refine ⟨fun i hi => ?_, fun i' hi' hx => ?_, by rw [k4', p3, ← k4]⟩
  · have g : s.ts[i]? = some (s.ts[i]'(by omega)) := List.getElem?_eq_getElem _
    have g' : s'.ts[f i]? = some (s'.ts[f i]'(by have := hn i hi; omega)) := List.getElem?_eq_getElem _
    have a := k2 i _ g
    have a' := k2' _ _ g'
    rw [p1 i hi] at a'
    cases hσ : (plan fp dev job s0.ts.length cpt s0.queue k').σ i with
    | waiting =>
      rw [hσ] at a a'
      exact Or.inl ⟨a, a'⟩
    | active x m =>
      rw [hσ] at a a'
      exact Or.inr (Or.inl ⟨a.1, a'.1, _, _, g, g', a'.2.1.trans a.2.1.symm, a'.2.2.trans a.2.2.symm⟩)
    | finished x m =>
      rw [hσ] at a a'
      exact Or.inr (Or.inr ⟨a.1, a'.1, _, _, g, g', a'.2.1.trans a.2.1.symm, a'.2.2.trans a.2.2.symm⟩)
  · obtain ⟨o, ho⟩ := init_waiting h0' i' hi'
    refine ⟨o, ?_⟩
    rw [k3', p2]
    refine List.mem_append_left _ ?_
    rw [l2] at ho
    rcases List.mem_append.mp ho with ho | ho
    · exact ho
    · obtain ⟨z, hz, e⟩ := List.mem_map.mp ho
      exact absurd (congrArg Prod.snd e) (hx z.2 (l3 z hz))

/-- With congestion model and any rounding: a transfer that has ended by the end of a timestep before the cycle at which
the first of the further transfers is scheduled starts and ends at the same cycles with and without them. -/
theorem C151_ended (fp : FP) (dev : Device) (hdev : DeviceOk dev) (hT : TableOk fp dev.tbt) (cpt : Nat)
    (hpos : 0 < cpt) (hcpt : cpt < 4244967296)
    (golden golden' : GoldenMap) (links : List Int → List Int) (b b' : List BucketKey → List BucketKey)
    (hb : ∀ l, (b l).Perm l) (hb' : ∀ l, (b' l).Perm l) (wl wl' : Workload)
    (hw : ∀ t ∈ wl.transfers, 0 ≤ t.injectionRate ∧ RectsOk t)
    (hw' : ∀ t ∈ wl'.transfers, 0 ≤ t.injectionRate ∧ RectsOk t) (s0 s0' : Sim)
    (h0 : initSim fp dev ⟨links, b⟩ wl = .ok s0) (h0' : initSim fp dev ⟨links, b'⟩ wl' = .ok s0')
    (f : Nat → Nat) (from_ : Nat) (hC : Continues s0 s0' f from_) (hP : ParentsFound s0)
    (c : Nat) (hc : c < from_) (s : Sim) (h : Reach (simConfig fp dev cpt golden true) s0 c s) (i : Nat)
    (hi : Completed s i) (u u' : Sim) (d d' : Nat)
    (hu : runLoop (simConfig fp dev cpt golden true) ⟨links, b⟩ wl = .ok (.finished u d))
    (hu' : runLoop (simConfig fp dev cpt golden' true) ⟨links, b'⟩ wl' = .ok (.finished u' d')) :
    ∃ t t', u.ts[i]? = some t ∧ u'.ts[f i]? = some t' ∧ t'.start = t.start ∧ t'.endc = t.endc := by
  obtain ⟨job, hd⟩ := describes_exists h0
  obtain ⟨job', hd'⟩ := describes_exists h0'
  have F := late_frame h0 h0' hb hb' rfl hC hP hd hd'
  have hn : ∀ i, i < s0.ts.length → f i < s0'.ts.length := fun i hi => embed_lt (hC.embeds (dev := dev)).toContains hi
  obtain ⟨L, l1, l2, l3⟩ := late_queue h0 h0' hC
  obtain ⟨k, k1, k2, _⟩ := follows_plan hdev hT hw h0 hpos hcpt hd h
  obtain ⟨p1, _⟩ := F.plan_late hn fp dev cpt l3 l1 k (by omega)
  rw [← l2] at p1
  have len : s.ts.length = s0.ts.length := by
    have := congrArg List.length (h.stat (computeRates_ok fp dev true) (init_inv h0))
    simpa using this
  obtain ⟨t, g, _, n1, n2⟩ := hi
  have hlt : i < s0.ts.length := by rw [← len]; exact (List.getElem?_eq_some_iff.mp g).1
  have a := k2 i t g
  obtain ⟨x, y, hσ⟩ : ∃ x y, (plan fp dev job s0.ts.length cpt s0.queue k).σ i = .finished x y := by
    cases hσ : (plan fp dev job s0.ts.length cpt s0.queue k).σ i with
    | waiting => rw [hσ] at a; exact absurd a n1
    | active x m => rw [hσ] at a; exact absurd a.1 n2
    | finished x y => exact ⟨x, y, rfl⟩
  have hσ' := p1 i hlt
  rw [hσ] at hσ'
  rw [← run_plan fp dev job s0.ts.length hpos s0.queue k] at hσ
  rw [← run_plan fp dev job' s0'.ts.length hpos s0'.queue k] at hσ'
  obtain ⟨e1, K, _, _, e2, _⟩ := plan_ends hdev hT hpos hcpt hw h0 hd hu
  obtain ⟨e1', K', _, _, e2', _⟩ := plan_ends hdev hT hpos hcpt hw' h0' hd' hu'
  have same : ∀ {jb : Nat → Job} {sp : Speed} {a b j x y x' y' : Nat}, run fp.f32.fl jb cpt sp a j = .finished x y →
      run fp.f32.fl jb cpt sp b j = .finished x' y' → x' = x ∧ y' = y := by
    intro jb sp a b j x y x' y' r1 r2
    rcases Nat.le_total a b with hab | hab
    · rw [run_finished_le hab r1] at r2
      obtain ⟨q1, q2⟩ := Prog.finished.inj r2
      exact ⟨q1.symm, q2.symm⟩
    · rw [run_finished_le hab r2] at r1
      exact Prog.finished.inj r1
  have g1 : u.ts[i]? = some (u.ts[i]'(by omega)) := List.getElem?_eq_getElem _
  have g2 : u'.ts[f i]? = some (u'.ts[f i]'(by have := hn i hlt; omega)) := List.getElem?_eq_getElem _
  obtain ⟨q1, q2⟩ := same hσ (e2 _ _ g1)
  obtain ⟨q3, q4⟩ := same hσ' (e2' _ _ g2)
  exact ⟨_, _, g1, g2, q3.trans q1.symm, q4.trans q2.symm⟩

/-- With congestion model and any rounding: if the run without the further transfers finishes before the cycle at which
the first of them is scheduled, a run with them does not finish earlier, and they have no influence on the others. -/
theorem C151_finished (fp : FP) (dev : Device) (hdev : DeviceOk dev) (hT : TableOk fp dev.tbt) (cpt : Nat)
    (hpos : 0 < cpt) (hcpt : cpt < 4244967296)
    (golden golden' : GoldenMap) (links : List Int → List Int) (b b' : List BucketKey → List BucketKey)
    (hb : ∀ l, (b l).Perm l) (hb' : ∀ l, (b' l).Perm l) (wl wl' : Workload)
    (hw : ∀ t ∈ wl.transfers, 0 ≤ t.injectionRate ∧ RectsOk t)
    (hw' : ∀ t ∈ wl'.transfers, 0 ≤ t.injectionRate ∧ RectsOk t) (s0 s0' : Sim)
    (h0 : initSim fp dev ⟨links, b⟩ wl = .ok s0) (h0' : initSim fp dev ⟨links, b'⟩ wl' = .ok s0')
    (f : Nat → Nat) (from_ : Nat) (hC : Continues s0 s0' f from_) (hP : ParentsFound s0)
    (s s' : Sim) (c c' : Nat) (h : runLoop (simConfig fp dev cpt golden true) ⟨links, b⟩ wl = .ok (.finished s c))
    (h' : runLoop (simConfig fp dev cpt golden' true) ⟨links, b'⟩ wl' = .ok (.finished s' c')) (hc : c < from_) :
    c ≤ c' ∧ ∀ (i : Nat) (t : TState), s.ts[i]? = some t →
      ∃ t', s'.ts[f i]? = some t' ∧ t'.start = t.start ∧ t'.endc = t.endc := by
  obtain ⟨job, hd⟩ := describes_exists h0
  obtain ⟨job', hd'⟩ := describes_exists h0'
  have F := late_frame h0 h0' hb hb' rfl hC hP hd hd'
  have hn : ∀ i, i < s0.ts.length → f i < s0'.ts.length := fun i hi => embed_lt (hC.embeds (dev := dev)).toContains hi
  obtain ⟨L, l1, l2, l3⟩ := late_queue h0 h0' hC
  have A : ∀ k, k * cpt < from_ → Agree s0.ts.length f
      (run fp.f32.fl job cpt (sharedIn fp dev job cpt (planOrder fp dev job s0.ts.length cpt s0.queue)) k)
      (run fp.f32.fl job' cpt (sharedIn fp dev job' cpt (planOrder fp dev job' s0'.ts.length cpt s0'.queue)) k) := by
    intro k hk
    rw [run_plan fp dev job s0.ts.length hpos s0.queue k, run_plan fp dev job' s0'.ts.length hpos s0'.queue k, l2]
    exact (F.plan_late hn fp dev cpt l3 l1 k hk).1
  obtain ⟨e1, K, e3, e4, e2, e5⟩ := plan_ends hdev hT hpos hcpt hw h0 hd h
  obtain ⟨e1', K', e3', e4', e2', _⟩ := plan_ends hdev hT hpos hcpt hw' h0' hd' h'
  have hK : K ≤ K' := by
    by_contra hlt
    have hle : K' * cpt ≤ K * cpt := Nat.mul_le_mul_right _ (by omega)
    refine e5 K' e3' (by omega) fun i hi => ?_
    have g : s'.ts[f i]? = some (s'.ts[f i]'(by have := hn i hi; omega)) := List.getElem?_eq_getElem _
    have := e2' _ _ g
    rw [A K' (by omega) i hi] at this
    exact ⟨_, _, this⟩
  refine ⟨by rw [e4, e4']; exact Nat.mul_le_mul_right _ hK, fun i t ht => ?_⟩
  have hi : i < s0.ts.length := by rw [← e1]; exact (List.getElem?_eq_some_iff.mp ht).1
  have g : s'.ts[f i]? = some (s'.ts[f i]'(by have := hn i hi; omega)) := List.getElem?_eq_getElem _
  have r := A K (by omega) i hi
  rw [e2 i t ht] at r
  have r2 := run_finished_le hK r
  rw [e2' _ _ g] at r2
  obtain ⟨q1, q2⟩ := Prog.finished.inj r2
  exact ⟨_, g, q1, q2⟩

/-- The first two of three transfers share a timestep and the third one waits for the first one.  A further one for cycle
129 has no influence on the two that have ended at cycle 128; a further one for cycle 257, after the end of the run, has
no influence at all. -/
example : times Sample.dev ⟨id, id⟩ [feed 740, feed 1000, feed 1000] true = some (256, [(0, 74), (0, 100), (74, 178)]) ∧
    times Sample.dev ⟨id, id⟩ [feed 740, { feed 3600 with offset := 129 }, feed 1000, feed 1000] true =
      some (384, [(0, 74), (129, 373), (0, 100), (74, 228)]) ∧
    times Sample.dev ⟨id, id⟩ [feed 740, { feed 3600 with offset := 257 }, feed 1000, feed 1000] true =
      some (512, [(0, 74), (257, 437), (0, 100), (74, 178)]) := by decide +kernel

end NPE.Props
