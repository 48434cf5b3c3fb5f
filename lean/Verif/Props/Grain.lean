import Verif.Proofs.FluidGrain
import Verif.Props.Mono

/-
Property C123: the length of the timestep.
-/

namespace NPE.Props
open NPE NPE.Spec NPE.Spec.Fluid

/-- Final clock, starts and ends of a run without congestion model, for a length of the timestep. -/
def timesAt (cpt : Nat) (ts : List Transfer) : Option (Nat × List (Nat × Nat)) :=
  let wl := (Workload.addPhase {} { transfers := ts }).setGoldenResultCycles [(0, (0, 1000))]
  match runLoop (simConfig .exact Sample.dev cpt wl.golden false) ⟨id, id⟩ wl with
  | .ok (.finished s c) => some (c, s.ts.map fun t => (t.start, t.endc))
  | _ => none

/-- C123 is violated: in every timestep, the bytes that are moved are rounded down.  A transfer of 300 bytes at 3/4 bytes
per cycle ends at cycle 400 with timesteps of 128 cycles, at cycle 406 with timesteps of 50 cycles and at cycle 600 with
timesteps of 2 cycles. -/
theorem C123_violated :
    timesAt 128 [{ Sample.tr 300 0 with injectionRate := 3 / 4 }] = some (512, [(0, 400)]) ∧
    timesAt 50 [{ Sample.tr 300 0 with injectionRate := 3 / 4 }] = some (450, [(0, 406)]) ∧
    timesAt 2 [{ Sample.tr 300 0 with injectionRate := 3 / 4 }] = some (600, [(0, 600)]) := by decide +kernel

theorem grain_run {dev : Device} {cpt : Nat} (hpos : 0 < cpt) (hcpt : cpt < 4244967296) {golden : GoldenMap}
    {ho : HashOrder} {wl : Workload} {s0 : Sim} (h0 : initSim .exact dev ho wl = .ok s0) {job : Nat → Job}
    (hd : Describes job s0) {s : Sim} {c : Nat}
    (h : runLoop (simConfig .exact dev cpt golden false) ho wl = .ok (.finished s c)) {i : Nat} {t : TState}
    (ht : s.ts[i]? = some t) : i < s0.ts.length ∧ (job i).t = t.params ∧
      ∃ k, k * cpt < 4294967296 ∧ run id job cpt (alone .exact dev job) k i = .finished t.start t.endc := by
  obtain ⟨hlen, k, _, hk, hall, _⟩ := (C111_alone .exact dev cpt hpos hcpt golden ho wl s0 h0 job hd).2 _ h
  have hi : i < s0.ts.length := by rw [← hlen]; exact (List.getElem?_eq_some_iff.mp ht).1
  refine ⟨hi, ?_, k, ?_, hall i t ht⟩
  · obtain ⟨x0, y0, hr⟩ := Out.bind_eq_ok.mp h
    have y1 : initSim .exact dev ho wl = .ok x0 := y0
    rw [h0] at y1
    rw [← Out.ok.inj y1] at hr
    have R : Reach (simConfig .exact dev cpt golden false) s0 c s := by
      rcases simLoop_reach (cfg := simConfig .exact dev cpt golden false) (s0 := s0) simFuel 0 s0 _ .start (Or.inl rfl)
        (by rw [Nat.zero_add]; exact hr) with ⟨s', c', he, hs, h1, h2, h3⟩ | ⟨s', c', he, hs, h1, h2⟩
      · obtain ⟨rfl, rfl⟩ := Ending.finished.inj he
        exact hs
      · cases he
    have hst := R.stat (computeRates_ok .exact dev false) (init_inv h0)
    have e := congrArg (·[i]?) hst
    simp only [List.getElem?_map, ht, List.getElem?_eq_getElem hi, Option.map_some] at e
    rw [(hd i _ (List.getElem?_eq_getElem hi)).1]
    exact (congrArg Prod.fst (Option.some.inj e)).symm
  · rw [← hk]
    have := finished_le h
    have e : (simConfig .exact dev cpt golden false).cpt = cpt := rfl
    omega

/-- C123, bounds (exact arithmetic, no congestion model, a transfer that waits for no other one): the transfer starts at
its offset and takes at least the time for its bytes at its bandwidth; at each boundary of timesteps it loses less than
one byte. -/
theorem C123_bounds_partial (dev : Device) (hT : TableOk .exact dev.tbt) (cpt : Nat) (hpos : 0 < cpt)
    (hcpt : cpt < 4244967296) (golden : GoldenMap) (ho : HashOrder) (wl : Workload) (s0 : Sim)
    (h0 : initSim .exact dev ho wl = .ok s0) (s : Sim) (c : Nat)
    (h : runLoop (simConfig .exact dev cpt golden false) ho wl = .ok (.finished s c)) (i : Nat) (t : TState)
    (ht : s.ts[i]? = some t) (hfree : ∀ j d, ¬ WaitsFor s0 i j d) (hinj : 0 ≤ t.params.injectionRate) :
    t.start = t.params.offset ∧
    (t.params.totalBytes : ℚ) / own .exact dev t.params ≤ (t.endc : ℚ) - t.start ∧
    (t.endc : ℚ) - t.start <
      ((t.params.totalBytes : ℚ) + boundaries cpt t.start (t.endc - 1)) / own .exact dev t.params + 1 := by
  obtain ⟨job, hd⟩ := describes_exists h0
  obtain ⟨hi, hp, k, hk, hr⟩ := grain_run hpos hcpt h0 hd h ht
  have ha : (job i).after = none := by
    cases e : (job i).after with
    | none => rfl
    | some p => exact absurd (((hd i _ (List.getElem?_eq_getElem hi)).2.2 p.1 p.2).mp e) (hfree _ _)
  have hv : 0 ≤ own .exact dev t.params := own_nonneg hT hinj
  have P := run_paced (speed := alone .exact dev job) (v := own .exact dev t.params) (δ := 1) hpos hv (by norm_num) ha
    (fun _ _ => by unfold alone; rw [hp]) (fun k _ => (lt_floor_toNat _).le) k hk
  rw [hr, hp] at P
  obtain ⟨p1, p2, p3⟩ := P
  rw [p1]
  exact ⟨rfl, p2, by rw [one_mul] at p3; exact p3⟩

/-- C123, where nothing is rounded: if the bandwidth is a whole number, or if a whole number of bytes is moved per
timestep and the transfer starts at a boundary, the transfer ends after the time for its bytes, rounded up, whatever the
length of the timestep. -/
theorem C123_partial (dev : Device) (hT : TableOk .exact dev.tbt) (cpt : Nat) (hpos : 0 < cpt)
    (hcpt : cpt < 4244967296) (golden : GoldenMap) (ho : HashOrder) (wl : Workload) (s0 : Sim)
    (h0 : initSim .exact dev ho wl = .ok s0) (s : Sim) (c : Nat)
    (h : runLoop (simConfig .exact dev cpt golden false) ho wl = .ok (.finished s c)) (i : Nat) (t : TState)
    (ht : s.ts[i]? = some t) (hfree : ∀ j d, ¬ WaitsFor s0 i j d) (hinj : 0 ≤ t.params.injectionRate)
    (hwhole : (∃ n : Nat, own .exact dev t.params = n) ∨
      cpt ∣ t.params.offset ∧ ∃ n : Nat, cpt * own .exact dev t.params = n) :
    t.start = t.params.offset ∧
    (t.endc : Int) = t.params.offset + ((t.params.totalBytes : ℚ) / own .exact dev t.params).ceil := by
  obtain ⟨job, hd⟩ := describes_exists h0
  obtain ⟨hi, hp, k, hk, hr⟩ := grain_run hpos hcpt h0 hd h ht
  have ha : (job i).after = none := by
    cases e : (job i).after with
    | none => rfl
    | some p => exact absurd (((hd i _ (List.getElem?_eq_getElem hi)).2.2 p.1 p.2).mp e) (hfree _ _)
  have hv : 0 ≤ own .exact dev t.params := own_nonneg hT hinj
  have whole : ∀ x : ℚ, (∃ n : Nat, x = n) → x ≤ ((x.floor.toNat : ℕ) : ℚ) + 0 := by
    rintro x ⟨n, rfl⟩
    have h1 : (n : ℤ) ≤ (n : ℚ).floor := Rat.le_floor_iff.mpr (by push_cast; exact le_refl _)
    have h2 : n ≤ (n : ℚ).floor.toNat := by omega
    rw [add_zero]
    exact_mod_cast h2
  have P := run_paced (speed := alone .exact dev job) (v := own .exact dev t.params) (δ := 0) hpos hv (le_refl _) ha
    (fun _ _ => by unfold alone; rw [hp]) (fun k hk => whole _ (by
      rw [hp] at hk ⊢
      rcases hwhole with ⟨n, e⟩ | ⟨⟨q, hq⟩, n, e⟩
      · exact ⟨min cpt ((k + 1) * cpt - t.params.offset) * n, by rw [e]; push_cast; ring⟩
      · by_cases hqk : q = k + 1
        · refine ⟨0, ?_⟩
          have : min cpt ((k + 1) * cpt - t.params.offset) = 0 := by rw [hq, hqk, Nat.mul_comm]; omega
          rw [this]; push_cast; ring
        · refine ⟨n, ?_⟩
          rw [hq] at hk
          have h1 : q ≤ k + 1 := by
            rw [Nat.mul_comm] at hk
            exact Nat.le_of_mul_le_mul_right hk hpos
          have h2 : q ≤ k := by omega
          have h3 : q * cpt ≤ k * cpt := Nat.mul_le_mul_right _ h2
          have h4 : (k + 1) * cpt = k * cpt + cpt := by ring
          have : min cpt ((k + 1) * cpt - t.params.offset) = cpt := by rw [hq, Nat.mul_comm cpt q]; omega
          rw [this, e])) k hk
  rw [hr, hp] at P
  obtain ⟨p1, p2, p3⟩ := P
  refine ⟨p1, ?_⟩
  rw [zero_mul, add_zero] at p3
  have : ((t.params.totalBytes : ℚ) / own .exact dev t.params).ceil = (t.endc : ℤ) - t.params.offset := by
    have c1 : (t.params.totalBytes : ℚ) / own .exact dev t.params ≤
      (((t.params.totalBytes : ℚ) / own .exact dev t.params).ceil : ℚ) := Rat.le_ceil
    have c2 : (((t.params.totalBytes : ℚ) / own .exact dev t.params).ceil : ℚ) <
      (t.params.totalBytes : ℚ) / own .exact dev t.params + 1 := Rat.ceil_lt
    have d1 : ((((t.params.totalBytes : ℚ) / own .exact dev t.params).ceil : ℤ) : ℚ) <
      (((t.endc : ℤ) - t.params.offset + 1 : ℤ) : ℚ) := by push_cast; linarith
    have d2 : (((t.endc : ℤ) - t.params.offset : ℤ) : ℚ) <
      ((((t.params.totalBytes : ℚ) / own .exact dev t.params).ceil + 1 : ℤ) : ℚ) := by push_cast; linarith
    have d3 := Int.cast_lt.mp d1
    have d4 := Int.cast_lt.mp d2
    omega
  omega

/-- C123 for two lengths of the timestep: the ends are the same if nothing is rounded. -/
theorem C123_same_partial (dev : Device) (hT : TableOk .exact dev.tbt) (cpt cpt' : Nat) (hpos : 0 < cpt) (hpos' : 0 < cpt')
    (hcpt : cpt < 4244967296) (hcpt' : cpt' < 4244967296) (golden golden' : GoldenMap) (ho : HashOrder) (wl : Workload)
    (s0 : Sim) (h0 : initSim .exact dev ho wl = .ok s0) (hI : Independent s0)
    (hwhole : ∀ t ∈ wl.transfers, 0 ≤ t.injectionRate ∧ ∃ n : Nat, own .exact dev t = n) (s s' : Sim) (c c' : Nat)
    (h : runLoop (simConfig .exact dev cpt golden false) ho wl = .ok (.finished s c))
    (h' : runLoop (simConfig .exact dev cpt' golden' false) ho wl = .ok (.finished s' c')) :
    s.ts.map (fun t => (t.start, t.endc)) = s'.ts.map (fun t => (t.start, t.endc)) := by
  obtain ⟨job, hd⟩ := describes_exists h0
  have l1 := ((C111_alone .exact dev cpt hpos hcpt golden ho wl s0 h0 job hd).2 _ h).1
  have l2 := ((C111_alone .exact dev cpt' hpos' hcpt' golden' ho wl s0 h0 job hd).2 _ h').1
  refine List.ext_getElem? fun i => ?_
  rw [List.getElem?_map, List.getElem?_map]
  by_cases hi : i < s0.ts.length
  · have g1 : s.ts[i]? = some s.ts[i] := List.getElem?_eq_getElem (by omega)
    have g2 : s'.ts[i]? = some s'.ts[i] := List.getElem?_eq_getElem (by omega)
    rw [g1, g2]
    simp only [Option.map_some]
    have p1 := (grain_run hpos hcpt h0 hd h g1).2.1
    have p2 := (grain_run hpos' hcpt' h0 hd h' g2).2.1
    have hm := describes_mem h0 hd hi
    obtain ⟨w1, w2⟩ := hwhole _ hm
    have a := C123_partial dev hT cpt hpos hcpt golden ho wl s0 h0 s c h i _ g1 (fun j d => hI i j d) (by rw [← p1]; exact w1)
      (Or.inl (by rw [← p1]; exact w2))
    have b := C123_partial dev hT cpt' hpos' hcpt' golden' ho wl s0 h0 s' c' h' i _ g2 (fun j d => hI i j d)
      (by rw [← p2]; exact w1) (Or.inl (by rw [← p2]; exact w2))
    rw [← p1] at a
    rw [← p2] at b
    rw [a.1, b.1]
    have : (s.ts[i].endc : Int) = s'.ts[i].endc := by rw [a.2, b.2]
    rw [Int.ofNat.inj this]
  · rw [List.getElem?_eq_none (by omega), List.getElem?_eq_none (by omega)]

/-- C123 is violated for short timesteps: a transfer that moves less than one byte per timestep never moves anything, so
the run does not finish. -/
theorem C123_stuck (dev : Device) (hT : TableOk .exact dev.tbt) (cpt : Nat) (hpos : 0 < cpt)
    (hcpt : cpt < 4244967296) (golden : GoldenMap) (ho : HashOrder) (wl : Workload) (s0 : Sim)
    (h0 : initSim .exact dev ho wl = .ok s0) (i : Nat) (t : TState) (ht : s0.ts[i]? = some t)
    (hfree : ∀ j d, ¬ WaitsFor s0 i j d) (hinj : 0 ≤ t.params.injectionRate) (hB : 0 < t.params.totalBytes)
    (hslow : cpt * own .exact dev t.params < 1) (s : Sim) (c : Nat) :
    runLoop (simConfig .exact dev cpt golden false) ho wl ≠ .ok (.finished s c) := by
  intro h
  obtain ⟨job, hd⟩ := describes_exists h0
  have l1 := ((C111_alone .exact dev cpt hpos hcpt golden ho wl s0 h0 job hd).2 _ h).1
  have hi : i < s0.ts.length := (List.getElem?_eq_some_iff.mp ht).1
  have g1 : s.ts[i]? = some s.ts[i] := List.getElem?_eq_getElem (by omega)
  obtain ⟨_, _, k, hk, hr⟩ := grain_run hpos hcpt h0 hd h g1
  have hp : (job i).t = t.params := (hd i _ ht).1
  have ha : (job i).after = none := by
    cases e : (job i).after with
    | none => rfl
    | some p => exact absurd (((hd i _ ht).2.2 p.1 p.2).mp e) (hfree _ _)
  rcases run_stuck (speed := alone .exact dev job) (own_nonneg hT hinj) hslow ha (fun _ _ => by unfold alone; rw [hp])
    (by rw [hp]; exact hB) k with e | ⟨x, e⟩ <;> rw [hr] at e <;> cases e

/-- Whole bandwidths: the same ends for three lengths of the timestep. -/
example : timesAt 128 [Sample.tr 300 10, { Sample.tr 301 77 with injectionRate := 3 }] = some (384, [(10, 310), (77, 178)]) ∧
    timesAt 50 [Sample.tr 300 10, { Sample.tr 301 77 with injectionRate := 3 }] = some (350, [(10, 310), (77, 178)]) ∧
    timesAt 1 [Sample.tr 300 10, { Sample.tr 301 77 with injectionRate := 3 }] = some (310, [(10, 310), (77, 178)]) := by
  decide +kernel

/-- Half a byte per cycle and timesteps of one cycle: nothing is moved in 1000 timesteps, although 300 bytes need 600. -/
example : run id (fun _ => Job.mk { Sample.tr 300 0 with injectionRate := 1 / 2 } [] none) 1
      (alone .exact Sample.dev fun _ => Job.mk { Sample.tr 300 0 with injectionRate := 1 / 2 } [] none) 1000 0 = .active 0 0 ∧
    timesAt 128 [{ Sample.tr 300 0 with injectionRate := 1 / 2 }] = some (640, [(0, 600)]) := by decide +kernel

end NPE.Props
