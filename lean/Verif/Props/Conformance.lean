import Verif.Props.Format
import Verif.Props.HashTests
import Verif.Props.Limit

/-
The unit tests of the repository (test/*.cpp) on the model.  These are tests of the model, not proofs about it: each
`example` is one expectation of a test, cited by file and line (relative to /repo/tt_npe/cpp).  Where a test is
about all inputs of a kind, or about random ones, the statement holds for all of them.  The test with the small
trace file (test_npe_api.cpp:30-52) is in ConformanceTrace.lean.  Not transcribed: the test with the large trace file
(test_npe_workload.cpp:158-168) and the tests of compression, which is a library.
-/

namespace NPE.Props.Conformance

open Spec

/-! ### test_npe_device.cpp -/

/-- CanErrOutOnUndefinedDevice, lines 20-22. -/
example (fp : FP) : createDeviceModel fp "undef" = .exc .deviceModelInitFailed := rfl

/-- CanRouteWormholeB0Noc, lines 23-31: routing does not fail for any pair of cores. -/
example (fp : FP) (ord : List Int → List Int) (r c r' c' : Int) (h1 : 0 ≤ r ∧ r < 12) (h2 : 0 ≤ c ∧ c < 10)
    (h3 : 0 ≤ r' ∧ r' < 12) (h4 : 0 ≤ c' ∧ c' < 10) :
    ∃ ids, (wormhole fp false 1).route ord .noc0 ⟨0, r, c⟩ (.unicast ⟨0, r', c'⟩) = .ok ids := by
  obtain ⟨ids, h, _⟩ := C06_route_length (wormhole fp false 1) (factory_devices_ok fp "wormhole_b0" _ rfl) ord .noc0
    ⟨0, r, c⟩ ⟨0, r', c'⟩ ⟨⟨le_rfl, Int.one_pos⟩, h1, h2⟩ ⟨⟨le_rfl, Int.one_pos⟩, h3, h4⟩ rfl
  exact ⟨ids, h⟩

/-- CanGetCoreTypeWormholeB0, lines 42-45. -/
example : [(⟨0, 0, 1⟩ : Coord), ⟨0, 1, 0⟩, ⟨0, 1, 1⟩, ⟨0, 10, 0⟩].map (fun c => ((wormhole .exact false 1).getCoreType c)) =
    [.ok .eth, .ok .dram, .ok .worker, .ok .undef] := by decide +kernel

/-- CanGetSrcInjectionRateWormholeB0, lines 58-59. -/
example (fp : FP) : (wormhole fp false 1).getSrcInjectionRate ⟨0, 1, 0⟩ = .ok (fp.f32.fl (232 / 10)) ∧
    (wormhole fp false 1).getSrcInjectionRate ⟨0, 1, 1⟩ = .ok (fp.f32.fl (281 / 10)) := by
  have h1 : (wormhole fp false 1).getCoreType ⟨0, 1, 0⟩ = .ok .dram := by
    rw [show (wormhole fp false 1).getCoreType ⟨0, 1, 0⟩ = (wormhole .exact false 1).getCoreType ⟨0, 1, 0⟩ from rfl]
    decide +kernel
  have h2 : (wormhole fp false 1).getCoreType ⟨0, 1, 1⟩ = .ok .worker := by
    rw [show (wormhole fp false 1).getCoreType ⟨0, 1, 1⟩ = (wormhole .exact false 1).getCoreType ⟨0, 1, 1⟩ from rfl]
    decide +kernel
  unfold Device.getSrcInjectionRate
  rw [h1, h2, show (232 / 10 : ℚ) = 116 / 5 by norm_num]
  exact ⟨rfl, rfl⟩

/-- CanGetCoreTypeWormholeMultichip, lines 103-112. -/
example : [(⟨0, 0, 1⟩ : Coord), ⟨0, 1, 0⟩, ⟨0, 1, 1⟩, ⟨0, 10, 0⟩, ⟨1, 0, 1⟩, ⟨1, 1, 0⟩, ⟨1, 1, 1⟩].map
      (fun c => ((wormhole .exact true 2).getCoreType c)) =
    [.ok .eth, .ok .dram, .ok .worker, .ok .undef, .ok .eth, .ok .dram, .ok .worker] := by decide +kernel

/-- CanQueryArchUsingDeviceModel, lines 178-185. -/
example (fp : FP) : (wormhole fp false 1).arch = .wormholeB0 ∧ (wormhole fp true 2).arch = .wormholeB0 ∧
    (blackhole fp true).arch = .blackhole := ⟨rfl, rfl, rfl⟩

/-! ### test_npe_workload.cpp -/

/-- A workload of one transfer, as the tests build it. -/
def one (size packets : Nat) (src dst : Coord) : Workload :=
  Workload.addPhase {} { transfers := [Transfer.make size packets src (.unicast dst) (281 / 10) 0 .noc1 "READ"] }

/-- CanConstructWorkload, lines 15-24. -/
example : (one 2048 1 ⟨0, 1, 1⟩ ⟨0, 1, 5⟩).phases.length = 1 ∧
    (one 2048 1 ⟨0, 1, 1⟩ ⟨0, 1, 5⟩).phases.map (·.transfers.length) = [1] := by decide

/-- CanValidateWorkload and the tests of rejection, lines 25-133. -/
example : [one 2048 1 ⟨0, 1, 1⟩ ⟨0, 1, 5⟩, one 2048 1 ⟨0, 1, 100⟩ ⟨0, 1, 5⟩, one 2048 1 ⟨0, 1, 1⟩ ⟨0, 1, 100⟩,
      one 2048 0 ⟨0, 1, 1⟩ ⟨0, 1, 5⟩, one 0 1 ⟨0, 1, 1⟩ ⟨0, 1, 5⟩, one 2048 1 ⟨1, 1, 1⟩ ⟨2, 1, 5⟩,
      one 2048 1 ⟨100, 1, 1⟩ ⟨0, 1, 5⟩].map (fun wl => wl.validate (wormhole .exact false 1)) =
    [.ok true, .ok false, .ok false, .ok false, .ok false, .ok false, .ok false] := by decide +kernel

/-- CanCountRouteHops, lines 136-156. -/
example :
    [(1, 1, 1, 1), (1, 1, 3, 1), (1, 1, 1, 3), (1, 1, 3, 3), (9, 1, 1, 1), (5, 1, 4, 1), (1, 6, 1, 5)].map
      (fun p : Int × Int × Int × Int => archHops .wormholeB0 p.1 p.2.1 p.2.2.1 p.2.2.2 (some .noc0)) =
      [0, 2, 2, 4, 2, 9, 11] ∧
    [(1, 1, 1, 1), (3, 1, 1, 1), (1, 3, 1, 1), (3, 3, 1, 1), (1, 1, 9, 11), (1, 3, 1, 11), (3, 1, 9, 1)].map
      (fun p : Int × Int × Int × Int => archHops .wormholeB0 p.1 p.2.1 p.2.2.1 p.2.2.2 (some .noc1)) =
      [0, 2, 2, 4, 4, 4, 4] ∧
    archHops .wormholeB0 1 1 2 2 none = -1 := by decide

/-! ### test_npe_engine.cpp -/

/-- CanConstructEngineForWormholeB0, line 9. -/
example (fp : FP) : (createDeviceModel fp "wormhole_b0").isOk = true := rfl

/-- The transfer of the tests, lines 17 and 31. -/
def simple (fp : FP) : Transfer :=
  Transfer.make 2048 1 ⟨0, 1, 1⟩ (.unicast ⟨0, 1, 5⟩) (fp.f32.fl (281 / 10)) 0 .noc1

/-- CanRunSimpleWorkload and CanRunSimpleWorkloadCongestionFree, lines 11-40: for every rounding and order of the
hash tables, with either congestion model, statistics are returned. -/
example (fp : FP) (ho : HashOrder) (hord : ∀ l, (ho.links l).Perm l) (hb : ∀ l, (ho.buckets l).Perm l)
    (model : String) (hm : model = "fast" ∨ model = "none") :
    ∃ api r, Api.make fp { congestionModel := model } = .ok api ∧
      api.runPerf fp ho (buildWith [{ transfers := [simple fp] }] [(0, (0, 32))]) = .ok (.inl r) := by
  have hmake : ∀ inf, Api.make fp { congestionModel := model, inferInjectionRate := inf } =
      .ok ⟨{ congestionModel := model, inferInjectionRate := inf }, wormhole fp false 1⟩ := by
    intro inf
    rcases hm with rfl | rfl <;> rfl
  refine ⟨⟨{ congestionModel := model }, wormhole fp false 1⟩, ?_⟩
  have hf := phase_transfers [simple fp] [(0, (0, 32))]
  have hback : ∀ t ∈ (buildWith [{ transfers := [simple fp] }] [(0, (0, 32))]).transfers, content t =
      content (simple fp) := by
    intro t ht
    obtain ⟨u, hu, e⟩ := forall₂_exists_of_mem_right hf ht
    rw [e, List.mem_singleton.mp hu]
  have hlen : (buildWith [{ transfers := [simple fp] }] [(0, (0, 32))]).transfers.length = 1 := hf.length_eq
  have hpre : (Api.mk { congestionModel := model, inferInjectionRate := false } (wormhole fp false 1)).preprocess fp
      (buildWith [{ transfers := [simple fp] }] [(0, (0, 32))]) =
        .ok (buildWith [{ transfers := [simple fp] }] [(0, (0, 32))]) := by
    unfold Api.preprocess
    simp
  have hx : Executable (wormhole fp false 1) (simple fp) := by
    refine ⟨Nat.le_refl 1, ⟨show 1 ≤ 2048 by omega, show 2048 < 4294967296 by omega⟩, show 1 ≤ 2048 * 1 % 4294967296 by decide,
      ?_, ?_, fun h => absurd rfl h⟩
    · exact ⟨⟨le_rfl, Int.one_pos⟩, ⟨show (0 : Int) ≤ 1 by decide, by show (1 : Int) < 12; decide⟩,
        show (0 : Int) ≤ 1 by decide, by show (1 : Int) < 10; decide⟩
    · exact .core _ ⟨⟨le_rfl, Int.one_pos⟩, ⟨by decide, by show (1 : Int) < 12; decide⟩, by decide,
        by show (5 : Int) < 10; decide⟩ rfl
  obtain ⟨b, hb1, hb2⟩ := wormhole_bw_ge fp false 1 (ps := 2048) (by omega) (n := 1) (by omega)
  have hinj : (23 : ℚ) ≤ fp.f32.fl (281 / 10) := nat_le_fl fp 23 (by decide) (by norm_num)
  have key := C22_returns 391 (by omega) (by omega) fp _ _ (hmake false) (show 128 ≤ 16777216 by decide) ho hord hb
    [{ transfers := [simple fp] }] [(0, (0, 32))] ?_ ?_ (Or.inr ?_) (Or.inl rfl) _ hpre ?_ (by rw [hlen]; omega) ?_ 0 ?_ ?_
  · obtain ⟨r, hr⟩ := key
    unfold Api.runNPE at hr
    rw [hpre, Out.bind_ok] at hr
    obtain ⟨v, _, hr⟩ := Out.bind_eq_ok.mp hr
    split at hr
    · refine ⟨r, by rcases hm with rfl | rfl <;> rfl, ?_⟩
      have e : (Api.mk { congestionModel := model } (wormhole fp false 1)).runPerf fp ho
            (buildWith [{ transfers := [simple fp] }] [(0, (0, 32))]) =
          (Api.mk { congestionModel := model, inferInjectionRate := false } (wormhole fp false 1)).runPerf fp ho
            (buildWith [{ transfers := [simple fp] }] [(0, (0, 32))]) := rfl
      rw [e]
      cases h : (Api.mk { congestionModel := model, inferInjectionRate := false } (wormhole fp false 1)).runPerf fp ho
            (buildWith [{ transfers := [simple fp] }] [(0, (0, 32))]) <;> rw [h] at hr
      all_goals first
        | exact hr
        | exact absurd hr (by simp [catchNpe])
    · exact absurd hr (by simp)
  · intro d h0 h1
    have h1 : d < 1 := h1
    obtain rfl : d = 0 := by omega
    exact ⟨_, rfl⟩
  · intro ph hph t ht
    simp only [List.mem_singleton] at hph
    subst hph
    rw [List.mem_singleton.mp ht]
    exact hx
  · intro ph hph t ht
    simp only [List.mem_singleton] at hph
    subst hph
    rw [List.mem_singleton.mp ht]
    exact ⟨fp.f32.fl_nonneg (by norm_num), fp.f32.idem _⟩
  · intro t ht h
    exact h.1 (congrArg (·.groupId) (hback t ht))
  · intro t ht
    have e := hback t ht
    have e1 : t.packetSize = 2048 := congrArg (·.packetSize) e
    have e2 : t.numPackets = 1 := congrArg (·.numPackets) e
    have e3 : t.injectionRate = fp.f32.fl (281 / 10) := congrArg (·.injectionRate) e
    have hmin : (17 : ℚ) ≤ min (fp.f32.fl (281 / 10)) b := le_min (by linarith) hb2
    rw [hlen]
    refine ⟨b, 23, by rw [e1, e2]; exact hb1, ?_, ?_, by norm_num, ?_, by rw [e3]; exact hinj, ?_⟩
    · rw [e3]
      show ((391 : Nat) : ℚ) ≤ (128 : Nat) * _
      push_cast
      linarith
    · rw [e3]
      show _ ≤ ((128 : Nat) : ℚ) * _ * _
      push_cast
      linarith
    · show (23 : ℚ) ≤ 30
      norm_num
    · intro x a hx ha
      unfold Device.getSinkAbsorptionRate at ha
      obtain ⟨ty, _, ha⟩ := Out.bind_eq_ok.mp ha
      rw [← Out.ok.inj ha]
      cases ty
      all_goals first
        | exact nat_le_fl fp 23 (by decide) (by norm_num)
        | (show (23 : ℚ) ≤ 24; norm_num)
  · intro t ht
    exact le_of_eq (congrArg (·.offset) (hback t ht))
  · right
    refine ⟨6, ?_, show 128 ≤ 25000000 by decide, by rw [hlen]; show laneDeadline 1 6 0 128 ≤ 50000000; decide⟩
    intro t ht
    rw [show t.totalBytes = 2048 from congrArg (·.totalBytes) (hback t ht)]
    decide

/-! ### test_npe_api.cpp -/

/-- CanConstructAPI, CanCatchUndefinedDevice, CanCatchInvalidConfig, lines 12-28. -/
example (fp : FP) : (Api.make fp { deviceName := "wormhole_b0" }).isOk = true ∧
    Api.make fp { deviceName := "undefined_af" } = .exc .deviceModelInitFailed ∧
    Api.make fp { cyclesPerTimestep := 0 } = .exc .invalidConfig := ⟨rfl, rfl, rfl⟩

/-! ### test_npe_util.cpp -/

/-- CanGetMulticastCoordSetGridSize, lines 11-22. -/
example : [(⟨⟨0, 1, 1⟩, ⟨0, 1, 1⟩⟩ : CoordGrid), ⟨⟨0, 5, 5⟩, ⟨0, 5, 5⟩⟩, ⟨⟨0, 1, 1⟩, ⟨0, 1, 2⟩⟩, ⟨⟨0, 1, 1⟩, ⟨0, 4, 4⟩⟩].map
    (fun g => mcastGridSize [g]) = [1, 1, 2, 16] := by decide +kernel

/-- CanIterateOverMulticastCoordSet, lines 23-87. -/
example : mcastCoords [⟨⟨0, 1, 1⟩, ⟨0, 2, 2⟩⟩] = .ok [⟨0, 1, 1⟩, ⟨0, 1, 2⟩, ⟨0, 2, 1⟩, ⟨0, 2, 2⟩] ∧
    mcastCoords [⟨⟨0, 1, 1⟩, ⟨0, 1, 1⟩⟩] = .ok [⟨0, 1, 1⟩] ∧
    mcastCoords [⟨⟨0, 1, 1⟩, ⟨0, 3, 3⟩⟩] = .ok [⟨0, 1, 1⟩, ⟨0, 1, 2⟩, ⟨0, 1, 3⟩, ⟨0, 2, 1⟩, ⟨0, 2, 2⟩, ⟨0, 2, 3⟩,
      ⟨0, 3, 1⟩, ⟨0, 3, 2⟩, ⟨0, 3, 3⟩] ∧
    mcastCoords [⟨⟨0, 3, 2⟩, ⟨0, 4, 7⟩⟩] = .ok [⟨0, 3, 2⟩, ⟨0, 3, 3⟩, ⟨0, 3, 4⟩, ⟨0, 3, 5⟩, ⟨0, 3, 6⟩, ⟨0, 3, 7⟩,
      ⟨0, 4, 2⟩, ⟨0, 4, 3⟩, ⟨0, 4, 4⟩, ⟨0, 4, 5⟩, ⟨0, 4, 6⟩, ⟨0, 4, 7⟩] := by decide +kernel

/-- MultiDeviceMulticastCoordSet and MultiDeviceDisjointMulticastCoordSet, lines 89-299: sizes, coordinates and
texts. -/
example : mkMcast ⟨1, 3, 3⟩ ⟨1, 4, 4⟩ = .ok [⟨⟨1, 3, 3⟩, ⟨1, 4, 4⟩⟩] ∧
    mcastGridSize [⟨⟨0, 1, 1⟩, ⟨0, 2, 2⟩⟩, ⟨⟨1, 3, 3⟩, ⟨1, 4, 4⟩⟩, ⟨⟨2, 5, 5⟩, ⟨2, 5, 7⟩⟩] = 4 + 4 + 3 ∧
    mcastCoords [⟨⟨0, 1, 1⟩, ⟨0, 2, 2⟩⟩, ⟨⟨1, 3, 3⟩, ⟨1, 4, 4⟩⟩, ⟨⟨2, 5, 5⟩, ⟨2, 5, 7⟩⟩] =
      .ok [⟨0, 1, 1⟩, ⟨0, 1, 2⟩, ⟨0, 2, 1⟩, ⟨0, 2, 2⟩, ⟨1, 3, 3⟩, ⟨1, 3, 4⟩, ⟨1, 4, 3⟩, ⟨1, 4, 4⟩,
        ⟨2, 5, 5⟩, ⟨2, 5, 6⟩, ⟨2, 5, 7⟩] ∧
    [Format.dest (.mcast [⟨⟨0, 1, 1⟩, ⟨0, 2, 2⟩⟩]), Format.dest (.mcast [⟨⟨1, 3, 3⟩, ⟨1, 4, 4⟩⟩]),
      Format.dest (.mcast [⟨⟨2, 5, 5⟩, ⟨2, 5, 7⟩⟩])] =
      ["Dev0(1,1)-(2,2)".toList, "Dev1(3,3)-(4,4)".toList, "Dev2(5,5)-(5,7)".toList] := by decide +kernel

/-- HashFunctions and HashContainerBasic, lines 301-345 and 420-478. -/
example : Hash.combine (Hash.combine 0 42) 123 ≠ Hash.combine (Hash.combine 0 123) 42 ∧
    Hash.container 0 [1, 2, 3, 4, 5] ≠ Hash.container 0 [5, 4, 3, 2, 1] ∧
    Hash.container 0 [1, 2, 3, 4, 5] ≠ Hash.container 0 [1, 2, 3, 4, 6] ∧
    Hash.container 0 [1, 2, 3, 4, 5] ≠ Hash.container 42 [1, 2, 3, 4, 5] ∧
    Hash.mcast [⟨⟨0, 1, 1⟩, ⟨0, 2, 2⟩⟩] ≠ Hash.mcast [⟨⟨0, 3, 3⟩, ⟨0, 4, 4⟩⟩] ∧
    Hash.container 0 [Hash.coord ⟨0, 0, 0⟩, Hash.coord ⟨0, 0, 1⟩, Hash.coord ⟨0, 1, 0⟩] ≠
      Hash.container 0 [Hash.coord ⟨0, 1, 0⟩, Hash.coord ⟨0, 0, 1⟩, Hash.coord ⟨0, 0, 0⟩] ∧
    Hash.container 0 [] = 0 := by decide +kernel

end NPE.Props.Conformance
