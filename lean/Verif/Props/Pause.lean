import Verif.Proofs.Pause
import Verif.Proofs.FluidCrowd
import Verif.Props.Mono

/-
Property C152: a pause separates two parts of a workload.
-/

namespace NPE.Props
open NPE NPE.Spec NPE.Spec.Fluid

/-- C152 is violated: a transfer for cycle 130 ends at cycle 530, but at cycle 404 if two others of the same queue end at
cycle 128, the end of a timestep.  The first of these counts as ended in the timestep in which the third one starts, which
is then credited that timestep twice (cf. C59).  With congestion or without it. -/
theorem C152_violated :
    times Sample.dev ⟨id, id⟩ [feed 1280, feed 1280] true = some (128, [(0, 128), (0, 128)]) ∧
    times Sample.dev ⟨id, id⟩ [{ feed 8000 with offset := 130 }] true = some (640, [(130, 530)]) ∧
    times Sample.dev ⟨id, id⟩ [feed 1280, feed 1280, { feed 8000 with offset := 130 }] true =
      some (512, [(0, 128), (0, 128), (130, 404)]) ∧
    times Sample.dev ⟨id, id⟩ [{ feed 8000 with offset := 130 }] false = some (640, [(130, 530)]) ∧
    times Sample.dev ⟨id, id⟩ [feed 2560, feed 100, { feed 8000 with offset := 130 }] false =
      some (512, [(0, 128), (0, 5), (130, 404)]) := by decide +kernel

/-- C152 without congestion model, with any rounding: if the run of the first part finishes before the second part is
scheduled, and those of its transfers that others wait for end before the timestep in which this is, then the run of both
together is one run after the other: every transfer starts and ends at the same cycles as in the run of its part, and the
clock stops as the later of the two. -/
theorem C152_alone_partial (fp : FP) (dev : Device) (cpt : Nat) (hpos : 0 < cpt) (hcpt : cpt < 4244967296)
    (golden1 golden2 golden : GoldenMap) (links : List Int → List Int) (b1 b2 b : List BucketKey → List BucketKey)
    (hb1 : ∀ l, (b1 l).Perm l) (hb2 : ∀ l, (b2 l).Perm l) (hb : ∀ l, (b l).Perm l) (wl1 wl2 wl : Workload)
    (s1 s2 s : Sim) (h1 : initSim fp dev ⟨links, b1⟩ wl1 = .ok s1) (h2 : initSim fp dev ⟨links, b2⟩ wl2 = .ok s2)
    (h : initSim fp dev ⟨links, b⟩ wl = .ok s) (f g : Nat → Nat) (from_ : Nat) (hC : Sequence s1 s2 s f g from_)
    (hP1 : ParentsFound s1) (hP2 : ParentsFound s2) (u1 u : Sim) (c1 c : Nat) (e2 : Ending)
    (r1 : runLoop (simConfig fp dev cpt golden1 false) ⟨links, b1⟩ wl1 = .ok (.finished u1 c1))
    (r2 : runLoop (simConfig fp dev cpt golden2 false) ⟨links, b2⟩ wl2 = .ok e2)
    (r : runLoop (simConfig fp dev cpt golden false) ⟨links, b⟩ wl = .ok (.finished u c))
    (hc : c1 < from_)
    (hends : ∀ (i j : Nat) (t : TState), u1.ts[i]? = some t → WaitsFor s (g j) (f i) 0 → t.endc < from_ / cpt * cpt) :
    ∃ u2 c2, e2 = .finished u2 c2 ∧ c = max c1 c2 ∧
      (∀ (i : Nat) (t : TState), u1.ts[i]? = some t →
        ∃ t', u.ts[f i]? = some t' ∧ t'.start = t.start ∧ t'.endc = t.endc) ∧
      ∀ (i : Nat) (t : TState), u2.ts[i]? = some t →
        ∃ t', u.ts[g i]? = some t' ∧ t'.start = t.start ∧ t'.endc = t.endc := by
  obtain ⟨job1, hd1⟩ := describes_exists h1
  obtain ⟨job2, hd2⟩ := describes_exists h2
  obtain ⟨job, hd⟩ := describes_exists h
  have F1 := late_frame h1 h hb1 hb rfl hC.continues hP1 hd1 hd
  have F2 := pause_later h2 h hb2 hb hC hP2 hd2 hd
  have A1 : ∀ k, k * cpt < from_ → Agree s1.ts.length f (run fp.f32.fl job1 cpt (alone fp dev job1) k)
      (run fp.f32.fl job cpt (alone fp dev job) k) :=
    fun k _ => F1.run_eq (speed := alone fp dev job1) (speed' := alone fp dev job)
      (fun _ _ _ _ i hi => F1.alone_eq fp dev _ _ _ i hi) k
  have E1 := (C111_alone fp dev cpt hpos hcpt golden1 _ wl1 s1 h1 job1 hd1).2 _ r1
  exact pause_times (fun i hi => embed_lt (hC.continues.embeds (dev := dev)).toContains hi)
    (fun i hi => embed_lt (hC.embeds (dev := dev)).toContains hi) hC.all A1
    (F2.run_eq (speed := alone fp dev job2) (speed' := alone fp dev job)
      (fun _ _ _ _ i hi => own_same fp dev (F2.data i hi))
      (pause_over (old := fun a' => ∃ j, WaitsFor s (g j) a' 0) A1 E1 hc
        fun a t ht ⟨j, hj⟩ => hends a j t ht hj)) E1 hc
    ((C111_alone fp dev cpt hpos hcpt golden2 _ wl2 s2 h2 job2 hd2).2 _ r2)
    ((C111_alone fp dev cpt hpos hcpt golden _ wl s h job hd).2 _ r) (finished_le r)

example : times Sample.dev ⟨id, id⟩ [feed 1270, feed 1270] false = some (128, [(0, 64), (0, 64)]) ∧
    times Sample.dev ⟨id, id⟩ [{ feed 8000 with offset := 129 }, { feed 700 with offset := 135 },
      { feed 800 with offset := 130 }] false = some (768, [(129, 529), (529, 675), (130, 170)]) ∧
    times Sample.dev ⟨id, id⟩ [{ feed 8000 with offset := 129 }, feed 1270, { feed 700 with offset := 135 }, feed 1270,
      { feed 800 with offset := 130 }] false = some (768, [(129, 529), (0, 64), (529, 675), (0, 64), (130, 170)]) := by
  decide +kernel

/-- C152 with congestion model and any rounding.  (Missing: transfers that others wait for and that end at the end of the timestep
before the second part is scheduled, see `C152_violated`.) -/
theorem C152_partial (fp : FP) (dev : Device) (hdev : DeviceOk dev) (hT : TableOk fp dev.tbt) (cpt : Nat)
    (hpos : 0 < cpt) (hcpt : cpt < 4244967296)
    (golden1 golden2 golden : GoldenMap) (links : List Int → List Int) (b1 b2 b : List BucketKey → List BucketKey)
    (hb1 : ∀ l, (b1 l).Perm l) (hb2 : ∀ l, (b2 l).Perm l) (hb : ∀ l, (b l).Perm l) (wl1 wl2 wl : Workload)
    (hw1 : ∀ t ∈ wl1.transfers, 0 ≤ t.injectionRate ∧ RectsOk t)
    (hw2 : ∀ t ∈ wl2.transfers, 0 ≤ t.injectionRate ∧ RectsOk t)
    (hw : ∀ t ∈ wl.transfers, 0 ≤ t.injectionRate ∧ RectsOk t)
    (s1 s2 s : Sim) (h1 : initSim fp dev ⟨links, b1⟩ wl1 = .ok s1) (h2 : initSim fp dev ⟨links, b2⟩ wl2 = .ok s2)
    (h : initSim fp dev ⟨links, b⟩ wl = .ok s) (f g : Nat → Nat) (from_ : Nat) (hC : Sequence s1 s2 s f g from_)
    (hP1 : ParentsFound s1) (hP2 : ParentsFound s2) (u1 u : Sim) (c1 c : Nat) (e2 : Ending)
    (r1 : runLoop (simConfig fp dev cpt golden1 true) ⟨links, b1⟩ wl1 = .ok (.finished u1 c1))
    (r2 : runLoop (simConfig fp dev cpt golden2 true) ⟨links, b2⟩ wl2 = .ok e2)
    (r : runLoop (simConfig fp dev cpt golden true) ⟨links, b⟩ wl = .ok (.finished u c))
    (hc : c1 < from_)
    (hends : ∀ (i j : Nat) (t : TState), u1.ts[i]? = some t → WaitsFor s (g j) (f i) 0 → t.endc < from_ / cpt * cpt) :
    ∃ u2 c2, e2 = .finished u2 c2 ∧ c = max c1 c2 ∧
      (∀ (i : Nat) (t : TState), u1.ts[i]? = some t →
        ∃ t', u.ts[f i]? = some t' ∧ t'.start = t.start ∧ t'.endc = t.endc) ∧
      ∀ (i : Nat) (t : TState), u2.ts[i]? = some t →
        ∃ t', u.ts[g i]? = some t' ∧ t'.start = t.start ∧ t'.endc = t.endc := by
  obtain ⟨job1, hd1⟩ := describes_exists h1
  obtain ⟨job2, hd2⟩ := describes_exists h2
  obtain ⟨job, hd⟩ := describes_exists h
  have F1 := late_frame h1 h hb1 hb rfl hC.continues hP1 hd1 hd
  have F2 := pause_later h2 h hb2 hb hC hP2 hd2 hd
  have hn1 : ∀ i, i < s1.ts.length → f i < s.ts.length :=
    fun i hi => embed_lt (hC.continues.embeds (dev := dev)).toContains hi
  have hn2 : ∀ i, i < s2.ts.length → g i < s.ts.length := fun i hi => embed_lt (hC.embeds (dev := dev)).toContains hi
  obtain ⟨q1, q2, q3, q4⟩ := pause_queue h1 h2 h hC
  have P1 := F1.plan_late hn1 fp dev cpt q3 q2
  rw [← q1] at P1
  have A1 : ∀ k, k * cpt < from_ → Agree s1.ts.length f
      (run fp.f32.fl job1 cpt (sharedIn fp dev job1 cpt (planOrder fp dev job1 s1.ts.length cpt s1.queue)) k)
      (run fp.f32.fl job cpt (sharedIn fp dev job cpt (planOrder fp dev job s.ts.length cpt s.queue)) k) := by
    intro k hk
    rw [run_plan fp dev job1 s1.ts.length hpos s1.queue k, run_plan fp dev job s.ts.length hpos s.queue k]
    exact (P1 k hk).1
  have E1 := plan_ends hdev hT hpos hcpt hw1 h1 hd1 r1
  have hO := pause_over (old := fun a' => ∃ j, WaitsFor s (g j) a' 0) A1 E1 hc
        fun a t ht ⟨j, hj⟩ => hends a j t ht hj
  obtain ⟨k0, k1, k2⟩ : ∃ k0, k0 * cpt < from_ ∧ from_ ≤ (k0 + 1) * cpt := by
    refine ⟨(from_ - 1) / cpt, ?_, ?_⟩
    · have := Nat.div_mul_le_self (from_ - 1) cpt
      omega
    · have := Nat.lt_div_mul_add (a := from_ - 1) hpos
      rw [Nat.add_mul]
      omega
  -- before the second part is due
  have W : ∀ k, k * cpt < from_ → ∀ i, i < s2.ts.length →
      (plan fp dev job2 s2.ts.length cpt s2.queue k).σ i = .waiting ∧
      (plan fp dev job s.ts.length cpt s.queue k).σ (g i) = .waiting := by
    intro k hk i hi
    rw [← run_plan fp dev job2 s2.ts.length hpos s2.queue k, ← run_plan fp dev job s.ts.length hpos s.queue k]
    have hl := F2.late i hi
    exact ⟨run_waiting _ _ _ _ k (by omega), run_waiting _ _ _ _ k (by rw [(F2.data i hi).offset]; omega)⟩
  have D1 : (plan fp dev job1 s1.ts.length cpt s1.queue k0).queue = [] ∧
      (plan fp dev job1 s1.ts.length cpt s1.queue k0).live = [] := by
    have hr := r1
    unfold runLoop at hr
    rw [show initSim (simConfig fp dev cpt golden1 true).fp (simConfig fp dev cpt golden1 true).dev ⟨links, b1⟩ wl1 =
      .ok s1 from h1, Out.bind_ok] at hr
    rcases simLoop_reach (cfg := simConfig fp dev cpt golden1 true) (s0 := s1) simFuel 0 s1 _ .start (Or.inl rfl)
      (by rw [Nat.zero_add]; exact hr) with ⟨u', c', he, hs, x1, x2, _⟩ | ⟨u', c', he, _⟩
    · obtain ⟨rfl, rfl⟩ := Ending.finished.inj he
      obtain ⟨K, y1, _, y2, y3, _⟩ := follows_plan hdev hT hw1 h1 hpos hcpt hd1 hs
      have hK : K ≤ k0 := by
        have : K * cpt < (k0 + 1) * cpt := by omega
        have := Nat.lt_of_mul_lt_mul_right this
        omega
      obtain ⟨m, rfl⟩ := Nat.exists_eq_add_of_le hK
      exact plan_done fp dev job1 _ cpt _ ⟨by rw [← y2, x2], by rw [← y3, x1]⟩ m
    · cases he
  have D2 := plan_idle fp dev job2 s2.ts.length cpt (T := from_) (q0 := s2.queue)
    (fun x hx => q2 (moveEntry g x) (List.mem_map_of_mem hx)) k0 k1
  obtain ⟨_, p2, p3, _⟩ := P1 k0 k1
  rw [D1.1, List.map_nil, List.append_nil] at p2
  rw [D1.2, List.map_nil] at p3
  have key := F2.plan_eq hn2 fp dev s2.queue s.queue k2
    (fun i hi => by rw [(W k0 k1 i hi).1, (W k0 k1 i hi).2])
    (by rw [← run_plan fp dev job s.ts.length hpos s.queue k0]; exact hO k0 k2)
    (by rw [p2, D2.1]) (by rw [p3, D2.2, List.map_nil]) (by rw [D2.1]; exact q4)
    (fun i c m hi e => by rw [(W k0 k1 i hi).1] at e; cases e)
  have A2 : ∀ k, Agree s2.ts.length g
      (run fp.f32.fl job2 cpt (sharedIn fp dev job2 cpt (planOrder fp dev job2 s2.ts.length cpt s2.queue)) k)
      (run fp.f32.fl job cpt (sharedIn fp dev job cpt (planOrder fp dev job s.ts.length cpt s.queue)) k) := by
    intro k
    rw [run_plan fp dev job2 s2.ts.length hpos s2.queue k, run_plan fp dev job s.ts.length hpos s.queue k]
    rcases Nat.le_total k0 k with hk | hk
    · obtain ⟨m, rfl⟩ := Nat.exists_eq_add_of_le hk
      exact (key m).1
    · have : k * cpt ≤ k0 * cpt := Nat.mul_le_mul_right _ hk
      intro i hi
      rw [(W k (by omega) i hi).1, (W k (by omega) i hi).2]
  exact pause_times hn1 hn2 hC.all A1 A2 E1 hc (plan_ends hdev hT hpos hcpt hw2 h2 hd2 r2)
    (plan_ends hdev hT hpos hcpt hw h hd r) (finished_le r)

/-- Two transfers that end at cycle 127, three that are scheduled later, and all of them together in another order. -/
example : times Sample.dev ⟨id, id⟩ [feed 1270, feed 1270] true = some (128, [(0, 127), (0, 127)]) ∧
    times Sample.dev ⟨id, id⟩ [{ feed 8000 with offset := 129 }, { feed 700 with offset := 135 },
      { feed 800 with offset := 130 }] true = some (768, [(129, 592), (592, 675), (130, 210)]) ∧
    times Sample.dev ⟨id, id⟩ [{ feed 8000 with offset := 129 }, feed 1270, { feed 700 with offset := 135 }, feed 1270,
      { feed 800 with offset := 130 }] true = some (768, [(129, 592), (0, 127), (592, 675), (0, 127), (130, 210)]) := by
  decide +kernel

end NPE.Props
