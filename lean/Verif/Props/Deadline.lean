import Verif.Proofs.FluidDeadline
import Verif.Props.Mono

/-
Property C136: bounds on the ends of transfers that can be computed before the run.
-/

namespace NPE.Props
open NPE NPE.Spec NPE.Spec.Fluid

/-! ### C136: no transfer starves -/

/-- In exact arithmetic, a transfer never has less speed than it would have if all transfers of the workload were active
all the time, whatever the state of the run. -/
theorem C136_speed (dev : Device) (hT : TableOk .exact dev.tbt) (hC : Capacities dev) (job : Nat → Job) (n cpt : Nat)
    (hpos : 0 < cpt) (hinj : ∀ i, i < n → 0 ≤ (job i).t.injectionRate) (curr : Nat) (hcur : cpt ≤ curr) (σ : Fluid.State)
    (hst : ∀ i c m, σ i = .active c m → c ≤ curr) (i : Nat) (hi : i < n) :
    crowded dev job n cpt i ≤ shared dev job n cpt curr σ i ∧ shared dev job n cpt curr σ i ≤ own .exact dev (job i).t := by
  refine ⟨crowded_le hT hC hinj hpos hcur hst hi, ?_⟩
  unfold Fluid.shared
  exact mul_le_of_le_one_right (own_nonneg hT (hinj i hi)) (min_le_left _ _)

/-- The same with rounding, for the timesteps of a run. -/
theorem C136_speed_rounded (fp : FP) (dev : Device) (hT : TableOk fp dev.tbt) (hC : Capacities dev) (job : Nat → Job)
    (n cpt : Nat) (hinj : ∀ i, i < n → 0 ≤ (job i).t.injectionRate) (hr : ∀ i, i < n → fp.f32.Rep (job i).t.injectionRate)
    (order : Nat → List Nat) (speed : Speed) (k : Nat) (hO : Orders fp.f32.fl job n cpt speed order k)
    (v : Nat → ℚ) (hv : ∀ i, i < n → ∀ all : List Nat, all.Perm (List.range n) → v i ≤ crowdedIn fp dev job cpt all i)
    (k' : Nat) (hk : k' < k) (σ : Fluid.State) (i : Nat) (hi : i < n) :
    v i ≤ sharedIn fp dev job cpt order ((k' + 1) * cpt) σ i := by
  obtain ⟨hnd, hmem⟩ := hO k' hk
  obtain ⟨all, hsub, hperm⟩ := extend_order hnd fun i hi => ((hmem i).mp hi).1
  refine le_trans (hv i hi all hperm) (crowdedIn_le hT hC hinj hr hsub (fun j hj => ?_) hi)
  exact List.mem_range.mp (hperm.mem_iff.mp hj)

/-- C136 in exact arithmetic, for all workloads: if the deadlines `D` are computed with the speeds that the transfers would
have if all of them were active all the time, and none is beyond the limit of cycles, the run finishes, by the last of
them, and no transfer ends more than one timestep after its deadline. -/
theorem C136_exact (dev : Device) (hdev : DeviceOk dev) (hT : TableOk .exact dev.tbt) (hC : Capacities dev) (cpt : Nat)
    (hpos : 0 < cpt) (hcpt : cpt < 4244967296) (golden : GoldenMap) (ho : HashOrder) (wl : Workload)
    (hw : ∀ t ∈ wl.transfers, 0 ≤ t.injectionRate ∧ RectsOk t) (s0 : Sim) (h0 : initSim .exact dev ho wl = .ok s0)
    (job : Nat → Job) (hd : Describes job s0) (T D : Nat → Nat)
    (DL : Deadlines id job s0.ts.length cpt 0 (crowded dev job s0.ts.length cpt) T D)
    (K : Nat) (hK : 1 ≤ K) (hD : ∀ i, i < s0.ts.length → D i ≤ K) (hlim : K * cpt ≤ 50000000)
    (e : Ending) (h : runLoop (simConfig .exact dev cpt golden true) ho wl = .ok e) :
    ∃ s c, e = .finished s c ∧ c ≤ K * cpt ∧
      ∀ (i : Nat) (t : TState), s.ts[i]? = some t → t.endc ≤ (D i + 1) * cpt := by
  refine ends_by (R := FP.exact.f32) (x := 0) hpos DL
    ((C111_exact dev hdev hT cpt hpos hcpt golden ho wl hw s0 h0 job hd).2 e h) hK hD hlim
    (fun k _ i => run_near k i) fun k _ _ i hi c m ha => ?_
  refine crowded_le hT hC (fun i hi => (hw _ (describes_mem h0 hd hi)).1) hpos (Nat.le_mul_of_pos_left _ (by omega)) ?_ hi
  intro j c m hj
  have := start_inTime (job := job) (curr := (k + 1) * cpt) (σ := run id job cpt (shared dev job s0.ts.length cpt) k) (i := j)
    (b := (k + 1) * cpt) ((run_near (job := job) (cpt := cpt) (speed := shared dev job s0.ts.length cpt) k j).le
      (Nat.mul_le_mul_right _ (by omega)) le_rfl)
  have hj' : Fluid.start job ((k + 1) * cpt) (run id job cpt (shared dev job s0.ts.length cpt) k) j = .active c m := hj
  rw [hj'] at this
  exact this

/-- C136 without congestion model, for any rounding and all workloads: the deadlines are computed with the bandwidths of
the transfers.  Ends are rounded, so before cycle 2^24
they may be one cycle later. -/
theorem C136_alone (fp : FP) (dev : Device) (cpt : Nat)
    (hpos : 0 < cpt) (hcpt : cpt < 4244967296) (golden : GoldenMap) (ho : HashOrder) (wl : Workload)
    (s0 : Sim) (h0 : initSim fp dev ho wl = .ok s0)
    (job : Nat → Job) (hd : Describes job s0) (T D : Nat → Nat)
    (DL : Deadlines fp.f32.fl job s0.ts.length cpt 1 (fun i => own fp dev (job i).t) T D)
    (K : Nat) (hK : 1 ≤ K) (hD : ∀ i, i < s0.ts.length → D i ≤ K) (hlim : (K + 2) * cpt + 2 ≤ 16777216)
    (e : Ending) (h : runLoop (simConfig fp dev cpt golden false) ho wl = .ok e) :
    ∃ s c, e = .finished s c ∧ c ≤ K * cpt ∧
      ∀ (i : Nat) (t : TState), s.ts[i]? = some t → t.endc ≤ (D i + 1) * cpt + 1 := by
  have hk : ∀ k, k ≤ K → (k + 2) * cpt ≤ (K + 2) * cpt := fun k hk => Nat.mul_le_mul_right _ (by omega)
  have hk2 : (K + 2) * cpt = K * cpt + 2 * cpt := by ring
  refine ends_by (R := fp.f32) (x := 1) hpos DL
    ((C111_alone fp dev cpt hpos hcpt golden ho wl s0 h0 job hd).2 e h) hK hD (by omega)
    (fun k hk' i => near_round k (by have := hk k hk'; omega) i) fun k _ _ i _ _ _ _ => le_rfl

/-- The same at all clocks: above cycle 2^24 a float cannot count cycles, but the roundings of an end are at most 26 cycles
together. -/
theorem C136_alone_late (fp : FP) (dev : Device) (cpt : Nat)
    (hpos : 0 < cpt) (hcpt : cpt < 4244967296) (golden : GoldenMap) (ho : HashOrder) (wl : Workload)
    (s0 : Sim) (h0 : initSim fp dev ho wl = .ok s0)
    (job : Nat → Job) (hd : Describes job s0) (T D : Nat → Nat)
    (DL : Deadlines fp.f32.fl job s0.ts.length cpt 26 (fun i => own fp dev (job i).t) T D)
    (K : Nat) (hK : 1 ≤ K) (hD : ∀ i, i < s0.ts.length → D i ≤ K) (hlim : K * cpt ≤ 50000000)
    (e : Ending) (h : runLoop (simConfig fp dev cpt golden false) ho wl = .ok e) :
    ∃ s c, e = .finished s c ∧ c ≤ K * cpt ∧
      ∀ (i : Nat) (t : TState), s.ts[i]? = some t → t.endc ≤ (D i + 1) * cpt + 26 := by
  refine ends_by (R := fp.f32) (x := 26) hpos DL
    ((C111_alone fp dev cpt hpos hcpt golden ho wl s0 h0 job hd).2 e h) hK hD hlim
    (fun k hk' i => near_late k (le_trans (Nat.mul_le_mul_right _ hk') hlim) i) fun k _ _ i _ _ _ _ => le_rfl

/-- C136 for any rounding, for all workloads and both queue orders, before cycle 2^24: the deadlines are computed with
speeds that the transfers would have if all of them were active all the time, in whatever order their demands are added. -/
theorem C136_rounded_near (fp : FP) (dev : Device) (hdev : DeviceOk dev) (hT : TableOk fp dev.tbt) (hC : Capacities dev)
    (cpt : Nat) (hpos : 0 < cpt) (hcpt : cpt < 4244967296) (golden : GoldenMap) (ho : HashOrder) (wl : Workload)
    (hw : ∀ t ∈ wl.transfers, 0 ≤ t.injectionRate ∧ RectsOk t) (hr : ∀ t ∈ wl.transfers, fp.f32.Rep t.injectionRate)
    (s0 : Sim) (h0 : initSim fp dev ho wl = .ok s0) (job : Nat → Job) (hd : Describes job s0) (v : Nat → ℚ)
    (hv : ∀ i, i < s0.ts.length → ∀ all : List Nat, all.Perm (List.range s0.ts.length) →
      v i ≤ crowdedIn fp dev job cpt all i)
    (T D : Nat → Nat) (DL : Deadlines fp.f32.fl job s0.ts.length cpt 1 v T D)
    (K : Nat) (hK : 1 ≤ K) (hD : ∀ i, i < s0.ts.length → D i ≤ K) (hlim : (K + 2) * cpt + 2 ≤ 16777216)
    (e : Ending) (h : runLoop (simConfig fp dev cpt golden true) ho wl = .ok e) :
    ∃ s c, e = .finished s c ∧ c ≤ K * cpt ∧
      ∀ (i : Nat) (t : TState), s.ts[i]? = some t → t.endc ≤ (D i + 1) * cpt + 1 := by
  have hk : ∀ k, k ≤ K → (k + 2) * cpt ≤ (K + 2) * cpt := fun k hk => Nat.mul_le_mul_right _ (by omega)
  have hk2 : (K + 2) * cpt = K * cpt + 2 * cpt := by ring
  obtain ⟨order, hR, hE⟩ := C111_shared fp dev hdev hT cpt hpos hcpt golden ho wl hw s0 h0 job hd
  obtain ⟨s, hs⟩ := runLoop_reach h0 h
  obtain ⟨kf, hkf, _, hO⟩ := hR _ _ hs
  refine ends_by (R := fp.f32) (x := 1) hpos DL (hE e h) hK hD (by omega)
    (fun k hk' i => near_round k (by have := hk k hk'; omega) i) fun k _ hkc i hi _ _ _ => ?_
  refine C136_speed_rounded fp dev hT hC job _ cpt (fun i hi => (hw _ (describes_mem h0 hd hi)).1)
    (fun i hi => hr _ (describes_mem h0 hd hi)) order _ kf hO v hv k ?_ _ i hi
  rw [hkf] at hkc
  have := Nat.le_of_mul_le_mul_right hkc hpos
  omega

/-- C136 for any rounding, for all workloads and both queue orders, at all clocks within the limit of cycles. -/
theorem C136_rounded (fp : FP) (dev : Device) (hdev : DeviceOk dev) (hT : TableOk fp dev.tbt) (hC : Capacities dev)
    (cpt : Nat) (hpos : 0 < cpt) (hcpt : cpt < 4244967296) (golden : GoldenMap) (ho : HashOrder) (wl : Workload)
    (hw : ∀ t ∈ wl.transfers, 0 ≤ t.injectionRate ∧ RectsOk t) (hr : ∀ t ∈ wl.transfers, fp.f32.Rep t.injectionRate)
    (s0 : Sim) (h0 : initSim fp dev ho wl = .ok s0) (job : Nat → Job) (hd : Describes job s0) (v : Nat → ℚ)
    (hv : ∀ i, i < s0.ts.length → ∀ all : List Nat, all.Perm (List.range s0.ts.length) →
      v i ≤ crowdedIn fp dev job cpt all i)
    (T D : Nat → Nat) (DL : Deadlines fp.f32.fl job s0.ts.length cpt 26 v T D)
    (K : Nat) (hK : 1 ≤ K) (hD : ∀ i, i < s0.ts.length → D i ≤ K) (hlim : K * cpt ≤ 50000000)
    (e : Ending) (h : runLoop (simConfig fp dev cpt golden true) ho wl = .ok e) :
    ∃ s c, e = .finished s c ∧ c ≤ K * cpt ∧
      ∀ (i : Nat) (t : TState), s.ts[i]? = some t → t.endc ≤ (D i + 1) * cpt + 26 := by
  obtain ⟨order, hR, hE⟩ := C111_shared fp dev hdev hT cpt hpos hcpt golden ho wl hw s0 h0 job hd
  obtain ⟨s, hs⟩ := runLoop_reach h0 h
  obtain ⟨kf, hkf, _, hO⟩ := hR _ _ hs
  refine ends_by (R := fp.f32) (x := 26) hpos DL (hE e h) hK hD hlim
    (fun k hk' i => near_late k (le_trans (Nat.mul_le_mul_right _ hk') hlim) i) fun k _ hkc i hi _ _ _ => ?_
  refine C136_speed_rounded fp dev hT hC job _ cpt (fun i hi => (hw _ (describes_mem h0 hd hi)).1)
    (fun i hi => hr _ (describes_mem h0 hd hi)) order _ kf hO v hv k ?_ _ i hi
  rw [hkf] at hkc
  have := Nat.le_of_mul_le_mul_right hkc hpos
  omega

/-- The number of timesteps that are enough to move the bytes of a transfer at speed `v`. -/
def stepsFor (bytes cpt : Nat) (v : ℚ) : Nat := (bytes + perStep id cpt v - 1) / perStep id cpt v

/-- C136 as a formula, in exact arithmetic, for workloads in which no transfer waits for another one: a transfer ends at
most `stepsFor` timesteps, and two more, after its offset. -/
theorem C136_formula (dev : Device) (hdev : DeviceOk dev) (hT : TableOk .exact dev.tbt) (hC : Capacities dev) (cpt : Nat)
    (hpos : 0 < cpt) (hcpt : cpt < 4244967296) (golden : GoldenMap) (ho : HashOrder) (wl : Workload)
    (hw : ∀ t ∈ wl.transfers, 0 ≤ t.injectionRate ∧ RectsOk t) (s0 : Sim) (h0 : initSim .exact dev ho wl = .ok s0)
    (job : Nat → Job) (hd : Describes job s0) (hI : Independent s0)
    (hv : ∀ i, i < s0.ts.length → 0 < perStep id cpt (crowded dev job s0.ts.length cpt i))
    (K : Nat) (hlim : K * cpt ≤ 50000000)
    (hD : ∀ i, i < s0.ts.length →
      (job i).t.offset / cpt + 1 + stepsFor (job i).t.totalBytes cpt (crowded dev job s0.ts.length cpt i) ≤ K)
    (hK : 1 ≤ K) (e : Ending) (h : runLoop (simConfig .exact dev cpt golden true) ho wl = .ok e) :
    ∃ s c, e = .finished s c ∧ c ≤ K * cpt ∧ ∀ (i : Nat) (t : TState), s.ts[i]? = some t →
      t.endc ≤ (job i).t.offset + (stepsFor (job i).t.totalBytes cpt (crowded dev job s0.ts.length cpt i) + 2) * cpt := by
  have DL : Deadlines id job s0.ts.length cpt 0 (crowded dev job s0.ts.length cpt) (fun i => (job i).t.offset / cpt + 1)
      (fun i => (job i).t.offset / cpt + 1 + stepsFor (job i).t.totalBytes cpt (crowded dev job s0.ts.length cpt i)) := by
    refine ⟨fun i _ => Nat.le_add_left 1 _, fun i _ => ?_, fun i hi p d hp => ?_, fun i hi => ⟨Nat.le_add_right _ _, ?_⟩⟩
    · have := Nat.div_add_mod (job i).t.offset cpt
      have := Nat.mod_lt (job i).t.offset hpos
      rw [Nat.add_mul, Nat.mul_comm _ cpt]
      omega
    · rw [independent_after hd hI hi] at hp
      cases hp
    · rw [Nat.add_sub_cancel_left]
      unfold stepsFor
      have hv' := hv i hi
      have h1 := Nat.div_add_mod ((job i).t.totalBytes + perStep id cpt (crowded dev job s0.ts.length cpt i) - 1)
        (perStep id cpt (crowded dev job s0.ts.length cpt i))
      have h2 := Nat.mod_lt ((job i).t.totalBytes + perStep id cpt (crowded dev job s0.ts.length cpt i) - 1) hv'
      rw [Nat.mul_comm] at h1
      omega
  obtain ⟨s, c, he, hc, hends⟩ := C136_exact dev hdev hT hC cpt hpos hcpt golden ho wl hw s0 h0 job hd _ _ DL K hK hD hlim e h
  refine ⟨s, c, he, hc, fun i t ht => le_trans (hends i t ht) ?_⟩
  have := Nat.div_mul_le_self (job i).t.offset cpt
  calc _ = (job i).t.offset / cpt * cpt +
        (stepsFor (job i).t.totalBytes cpt (crowded dev job s0.ts.length cpt i) + 2) * cpt := by ring
    _ ≤ _ := by omega

/-- A way to check deadlines. -/
theorem deadlines_of_check {fl : ℚ → ℚ} {job : Nat → Job} {n cpt x : Nat} {v : Nat → ℚ} {T D : Nat → Nat}
    (h : (List.range n).all (fun i => decide (1 ≤ T i) && decide ((job i).t.offset ≤ T i * cpt) &&
      (match (job i).after with
        | none => true
        | some (p, d) => decide (p < n) && decide ((D p + 1) * cpt + x + d ≤ T i * cpt)) &&
      decide (T i ≤ D i) && decide ((job i).t.totalBytes ≤ (D i - T i) * perStep fl cpt (v i))) = true) :
    Deadlines fl job n cpt x v T D := by
  have key := fun i (hi : i < n) => List.all_eq_true.mp h i (List.mem_range.mpr hi)
  simp only [Bool.and_eq_true, decide_eq_true_eq] at key
  refine ⟨fun i hi => (key i hi).1.1.1.1, fun i hi => (key i hi).1.1.1.2, fun i hi p d hp => ?_,
    fun i hi => ⟨(key i hi).1.2, (key i hi).2⟩⟩
  have := (key i hi).1.1.2
  rw [hp] at this
  simp only [Bool.and_eq_true, decide_eq_true_eq] at this
  exact this

/-- Three transfers of which the last one waits for the first one: each moves at least 42 bytes in a timestep, so the first
two are finished after timestep 9 and the last one after timestep 18; the run is faster. -/
example : Deadlines id chain 3 128 0 (crowded Sample.dev chain 3 128) (fun i => if i = 2 then 10 else 1)
    (fun i => if i = 2 then 18 else 9) := deadlines_of_check (by decide +kernel)

example : (List.range 3).map (crowded Sample.dev chain 3 128) = [1 / 3, 1 / 3, 1 / 3] ∧
    perStep id 128 (1 / 3) = 42 ∧ stepsFor 300 128 (1 / 3) = 8 ∧
    times Sample.dev ⟨id, id⟩ [Sample.tr 300 0, Sample.tr 300 0, Sample.tr 300 0] true =
      some (1024, [(0, 600), (0, 600), (600, 900)]) := by decide +kernel

/-- A shorter deadline does not pass. -/
example : ¬ Deadlines id chain 3 128 0 (crowded Sample.dev chain 3 128) (fun i => if i = 2 then 10 else 1)
    (fun i => if i = 2 then 18 else 8) := fun h => absurd (h.steps 0 (by decide)).2 (by decide +kernel)

/-- Floats: speeds of two transfers that share a link, whatever the order; both are finished after two timesteps. -/
example : (∀ all ∈ [[0, 1], [1, 0]], (4296977 / 262144 : ℚ) ≤ crowdedIn .ieee Sample.dev pairJobs 128 all 0 ∧
      (6138539 / 524288 : ℚ) ≤ crowdedIn .ieee Sample.dev pairJobs 128 all 1) ∧
    (crowded Sample.dev pairJobs 2 128 0, crowded Sample.dev pairJobs 2 128 1) = (1967 / 120, 281 / 24) := by decide +kernel

example : Deadlines FP.ieee.f32.fl pairJobs 2 128 1 (fun i => if i = 0 then 4296977 / 262144 else 6138539 / 524288)
    (fun _ => 1) (fun _ => 2) := deadlines_of_check (by decide +kernel)

/-- Deadlines above cycle 2^24, with timesteps of ten million cycles. -/
example : Deadlines FP.ieee.f32.fl chain 3 10000000 26 (fun i => own .ieee Sample.dev (chain i).t) (fun i => if i = 2 then 4 else 1)
    (fun i => if i = 2 then 5 else 2) := deadlines_of_check (by decide +kernel)

example : Deadlines FP.ieee.f32.fl chain 3 128 1 (fun i => own .ieee Sample.dev (chain i).t) (fun i => if i = 2 then 6 else 1)
    (fun i => if i = 2 then 9 else 4) := deadlines_of_check (by decide +kernel)

end NPE.Props
