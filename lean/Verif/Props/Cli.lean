import Verif.Model.Cli
import Verif.Props.Document

/-
C94: the exit status of the command line program.
-/

namespace NPE.Spec.Cli
open NPE.Cli

/-- The settings that the options mean. -/
structure Settings (a : Args) (w : World) (cfg : Config) (tc : TimelineConfig) : Prop where
  device : cfg.deviceName = a.device
  model : cfg.congestionModel = a.congModel
  cycles : (cfg.cyclesPerTimestep : Int) = a.cycles
  infer : cfg.inferInjectionRate = true ↔ a.noInference = false
  scale : cfg.scaleSchedule = a.scale
  impact : cfg.estimateCongImpact = true
  keep : cfg.removeLocal = false
  emit : tc.emit = a.emit
  path : tc.path = a.timelinePath.toList
  workload : tc.workloadJson = a.workload.toList
  compress : tc.compress = a.compress
  legacy : tc.legacy = a.legacy
  topology : tc.topology = w.topology
  threshold : tc.threshold = 10000

/-- The options can be used: `argparse` accepts them and there are cycles in a timestep. -/
structure Usable (a : Args) : Prop where
  device : a.device ∈ ["wormhole_b0", "N150", "N300", "T3K", "blackhole", "P100", "P150"]
  model : a.congModel = "none" ∨ a.congModel = "fast"
  cycles : 0 < a.cycles ∧ a.cycles < 2 ^ 32
  workload : a.workload ≠ ""

/-- Loading the workload and simulating it gives `r`. -/
def Gives (fp : FP) (ho : HashOrder) (ord : List (Int × List Int) → List (Int × List Int)) (w : World) (a : Args)
    (r : Out Result) : Prop :=
  ∃ wl api cfg tc, createWorkload fp w.answer a.workload a.device a.isTrace w.workload = .ok (some wl) ∧
    Settings a w cfg tc ∧ Api.make fp cfg = .ok api ∧
    r = api.runNPEFiles fp ho ord tc wl >>= fun p => .ok p.1

end NPE.Spec.Cli

namespace NPE.Props
open Cli Spec.Cli Spec Out

theorem config_settings {a : Args} (w : World) {cfg : Config} (h : a.config = .ok cfg) :
    Settings a w cfg (a.timeline w) ∧ 0 ≤ a.cycles ∧ a.cycles < 2 ^ 32 := by
  unfold Args.config at h
  split at h
  · rename_i hc
    rw [← Out.ok.inj h]
    refine ⟨⟨rfl, rfl, ?_, ?_, rfl, rfl, rfl, rfl, rfl, rfl, rfl, rfl, rfl, rfl⟩, by omega⟩
    · simp only; omega
    · simp
  · cases h

theorem settings_unique {a : Args} {w : World} {cfg cfg' : Config} {tc tc' : TimelineConfig} (h : Settings a w cfg tc)
    (h' : Settings a w cfg' tc') : cfg = cfg' ∧ tc = tc' := by
  obtain ⟨a1, a2, a3, a4, a5, a6, a7, a8, a9, a10, a11, a12, a13, a14⟩ := h
  obtain ⟨b1, b2, b3, b4, b5, b6, b7, b8, b9, b10, b11, b12, b13, b14⟩ := h'
  cases cfg; cases cfg'; cases tc; cases tc'
  simp only at *
  subst_vars
  refine ⟨?_, ?_⟩
  · congr 1
    · omega
    · rw [Bool.eq_iff_iff, a4, b4]
  · rfl

/-- The handle can be created whenever the options are usable. -/
theorem make_usable (fp : FP) {a : Args} (h : Usable a) {cfg : Config} {w : World} {tc : TimelineConfig}
    (hs : Settings a w cfg tc) : ∃ api, Api.make fp cfg = .ok api := by
  have hd : ∃ dev, createDeviceModel fp cfg.deviceName = .ok dev := by
    rw [hs.device]
    have := h.device
    simp only [List.mem_cons, List.not_mem_nil, or_false] at this
    unfold createDeviceModel
    rcases this with h | h | h | h | h | h | h <;> rw [h] <;> exact ⟨_, rfl⟩
  obtain ⟨dev, hd⟩ := hd
  have hv : cfg.validate = .ok () := by
    unfold Config.validate
    have h1 := h.cycles.1
    rw [← hs.cycles] at h1
    rw [if_neg (by omega), if_neg]
    rw [hs.model]
    rintro ⟨h2, h3⟩
    rcases h.model with h | h
    · exact h2 h
    · exact h3 h
  refine ⟨⟨cfg, dev⟩, ?_⟩
  unfold Api.make
  show (createDeviceModel fp cfg.deviceName >>= fun dev => cfg.validate >>= fun _ => _) = _
  rw [hd, bind_ok, hv, bind_ok]
  rfl

/-- C94.  With usable options and a readable workload, the options reach the simulation, whose result decides. -/
theorem main_gives (fp : FP) (ho : HashOrder) (ord : List (Int × List Int) → List (Int × List Int)) (w : World) (a : Args)
    (ha : Usable a) {wl : Workload}
    (hwl : createWorkload fp w.answer a.workload a.device a.isTrace w.workload = .ok (some wl)) :
    ∃ r, Gives fp ho ord w a r ∧ (∀ r', Gives fp ho ord w a r' → r' = r) ∧ main fp ho ord w a = r >>= finish := by
  have hc : ∃ cfg, a.config = .ok cfg := by
    unfold Args.config
    rw [if_pos (by have := ha.cycles; omega)]
    exact ⟨_, rfl⟩
  obtain ⟨cfg, hc⟩ := hc
  obtain ⟨hset, _⟩ := config_settings w hc
  obtain ⟨api, hapi⟩ := make_usable fp ha hset
  refine ⟨_, ⟨wl, api, cfg, _, hwl, hset, hapi, rfl⟩, ?_, ?_⟩
  · rintro r' ⟨wl', api', cfg', tc', h1, h2, h3, rfl⟩
    obtain ⟨rfl, rfl⟩ := settings_unique h2 hset
    rw [hwl] at h1
    rw [hapi] at h3
    rw [Option.some.inj (Out.ok.inj h1), Out.ok.inj h3]
  · unfold main
    have hd : a.device ∈ devices := ha.device
    have hm : a.congModel ∈ models := by
      rcases ha.model with h | h <;> rw [h] <;> decide
    rw [if_neg (by simp [hd, hm]), hc, bind_ok, if_neg ha.workload]
    unfold simulate
    rw [hwl, bind_ok]
    simp only
    unfold initApi
    rw [hapi]
    simp only [bind_ok]
    cases api.runNPEFiles fp ho ord (a.timeline w) wl <;> rfl

/-- C94 does not hold: whenever the simulation succeeds, the program ends with status 1, because the bindings give
statistics no attribute `wallclock_runtime_us`. -/
theorem C94_violated_success (fp : FP) (ho : HashOrder) (ord : List (Int × List Int) → List (Int × List Int)) (w : World)
    (a : Args) (ha : Usable a) (rep : Report) (h : Gives fp ho ord w a (.ok (.inl rep))) :
    exitStatus (main fp ho ord w a) = .ok 1 := by
  obtain ⟨wl, api, cfg, tc, hwl, _⟩ := id h
  obtain ⟨r, _, hu, hm⟩ := main_gives fp ho ord w a ha hwl
  rw [hm, ← hu _ h]
  rfl

/-- C94 does not hold: whenever the simulation reports an error, the program ends with status 0. -/
theorem C94_violated_error (fp : FP) (ho : HashOrder) (ord : List (Int × List Int) → List (Int × List Int)) (w : World)
    (a : Args) (ha : Usable a) (e : ErrCode) (h : Gives fp ho ord w a (.ok (.inr e))) :
    exitStatus (main fp ho ord w a) = .ok 0 := by
  obtain ⟨wl, api, cfg, tc, hwl, _⟩ := id h
  obtain ⟨r, _, hu, hm⟩ := main_gives fp ho ord w a ha hwl
  rw [hm, ← hu _ h]
  rfl

/-- C94, in general: the exit status is 0 exactly if the options are usable and the simulation reports an error. -/
theorem C94_status (fp : FP) (ho : HashOrder) (ord : List (Int × List Int) → List (Int × List Int)) (w : World) (a : Args) :
    exitStatus (main fp ho ord w a) = .ok 0 ↔ Usable a ∧ ∃ e, Gives fp ho ord w a (.ok (.inr e)) := by
  constructor
  · intro h
    have h0 : main fp ho ord w a = .ok 0 := by
      cases hm : main fp ho ord w a <;> rw [hm] at h <;> first | exact h | exact absurd (Out.ok.inj h) (by decide)
    clear h
    unfold main at h0
    split at h0
    · exact absurd (Out.ok.inj h0) (by decide)
    rename_i hch
    obtain ⟨cfg, hc, h0⟩ := bind_eq_ok.mp h0
    split at h0
    · exact absurd (Out.ok.inj h0) (by decide)
    rename_i hne
    unfold simulate at h0
    obtain ⟨wl, hwl, h0⟩ := bind_eq_ok.mp h0
    cases wl with
    | none => exact absurd (Out.ok.inj h0) (by decide)
    | some wl =>
      obtain ⟨api, hapi, h0⟩ := bind_eq_ok.mp h0
      cases api with
      | none => exact absurd (Out.ok.inj h0) (by decide)
      | some api =>
        obtain ⟨hset, hpos, hlt⟩ := config_settings w hc
        have hmk : Api.make fp cfg = .ok api := by
          unfold initApi at hapi
          cases hk : Api.make fp cfg with
          | ok api' => rw [hk] at hapi; rw [Option.some.inj (Out.ok.inj hapi)]
          | _ => rw [hk] at hapi; simp at hapi
        simp only at h0
        obtain ⟨r, hr, h0⟩ := bind_eq_ok.mp h0
        have hd : a.device ∈ devices := by
          by_contra h
          exact hch (.inl h)
        have hm : a.congModel ∈ models := by
          by_contra h
          exact hch (.inr h)
        have hcyc : 0 < a.cycles := by
          by_contra hn
          have hz : cfg.cyclesPerTimestep = 0 := by
            have := hset.cycles
            omega
          unfold Api.make at hmk
          obtain ⟨dev, _, hmk⟩ := bind_eq_ok.mp hmk
          obtain ⟨_, hv, _⟩ := bind_eq_ok.mp hmk
          unfold Config.validate at hv
          rw [if_pos (by omega)] at hv
          cases hv
        refine ⟨⟨hd, by simpa [models] using hm, ⟨hcyc, hlt⟩, hne⟩, ?_⟩
        rcases r with ⟨r, files⟩
        cases r with
        | inl rep => cases h0
        | inr e => exact ⟨e, wl, api, cfg, _, hwl, hset, hmk, by rw [hr]; rfl⟩
  · rintro ⟨ha, e, h⟩
    exact C94_violated_error fp ho ord w a ha e h

/-- C94 (missing: the result of the simulation).  Options that cannot be used and workloads that cannot be read end
the program with status 1 or 2. -/
theorem C94_partial (fp : FP) (ho : HashOrder) (ord : List (Int × List Int) → List (Int × List Int)) (w : World) (a : Args)
    (h : (¬ Usable a ∧ (a.workload ≠ "" → ∃ wl, createWorkload fp w.answer a.workload a.device a.isTrace w.workload = .ok wl)) ∨
      createWorkload fp w.answer a.workload a.device a.isTrace w.workload = .ok none) :
    exitStatus (main fp ho ord w a) = .ok 1 ∨ exitStatus (main fp ho ord w a) = .ok 2 := by
  unfold main
  split
  · exact .inr rfl
  rename_i hch
  left
  cases hc : a.config with
  | ok cfg =>
    rw [bind_ok]
    split
    · rfl
    rename_i hne
    have key : simulate fp ho ord w a cfg = .ok 1 := by
      unfold simulate
      have hwl : ∃ wl, createWorkload fp w.answer a.workload a.device a.isTrace w.workload = .ok wl := by
        rcases h with h | h
        · exact h.2 hne
        · exact ⟨_, h⟩
      obtain ⟨wl, hwl⟩ := hwl
      cases wl with
      | none => rw [hwl, bind_ok]
      | some wl =>
        have hu : ¬ Usable a := by
          rcases h with h | h
          · exact h.1
          · rw [h] at hwl
            cases hwl
        rw [hwl, bind_ok]
        simp only
        obtain ⟨hset, hpos, hlt⟩ := config_settings w hc
        have hd : a.device ∈ devices := by
          by_contra h
          exact hch (.inl h)
        have hm : a.congModel ∈ models := by
          by_contra h
          exact hch (.inr h)
        have hz : cfg.cyclesPerTimestep = 0 := by
          by_contra hn
          have := hset.cycles
          exact hu ⟨hd, by simpa [models] using hm, ⟨by omega, hlt⟩, hne⟩
        have hv : cfg.validate = .exc .invalidConfig := by
          unfold Config.validate
          rw [if_pos (by omega)]
        have hmk : Api.make fp cfg = .exc .invalidConfig ∨ ∃ e, Api.make fp cfg = .exc e := by
          unfold Api.make
          show (createDeviceModel fp cfg.deviceName >>= fun dev => cfg.validate >>= fun _ => _) = _ ∨
            ∃ e, (createDeviceModel fp cfg.deviceName >>= fun dev => cfg.validate >>= fun _ => _) = _
          rw [hv]
          have : ∀ x, x ∈ devices → ∃ dev, createDeviceModel fp x = .ok dev := by
            intro x hx
            simp only [devices, List.mem_cons, List.not_mem_nil, or_false] at hx
            unfold createDeviceModel
            rcases hx with h | h | h | h | h | h | h <;> rw [h] <;> exact ⟨_, rfl⟩
          obtain ⟨dev, hdev⟩ := this _ hd
          rw [hset.device, hdev]
          exact .inl rfl
        obtain ⟨e, hmk⟩ : ∃ e, Api.make fp cfg = .exc e := by
          rcases hmk with h | h
          · exact ⟨_, h⟩
          · exact h
        unfold initApi
        rw [hmk]
        rfl
    rw [key]
    rfl
  | std e => rfl
  | exc e => rfl
  | exit => rfl
  | ub =>
    unfold Args.config at hc
    split at hc <;> cases hc
  | diverge =>
    unfold Args.config at hc
    split at hc <;> cases hc

/-- A workload file with one transfer of some bytes. -/
def oneTransfer (bytes : Int) : InputFile := .doc (.obj [("phases", .arr [.obj [("transfers", .arr [.obj [
  ("packet_size", .int bytes), ("num_packets", .int 1), ("src_x", .int 1), ("src_y", .int 1), ("dst_x", .int 2),
  ("dst_y", .int 1), ("injection_rate", .double 28), ("phase_cycle_offset", .int 0), ("noc_type", .str "NOC_0"),
  ("noc_event_type", .str "WRITE")]])]]),
  ("golden_result", .obj [("cycles", .int 100)])])

/-- The exit status. -/
def code (o : Out Nat) : Option Nat := match o with | .ok n => some n | _ => none

/-- The simulation alone, with the settings of the options. -/
def estimate (bytes : Int) : Kind :=
  match createWorkload .exact true "w.json" "wormhole_b0" false (oneTransfer bytes),
      Api.make .exact { cyclesPerTimestep := 1000 } with
  | .ok (some wl), .ok api => kind (api.runNPEFiles .exact ⟨id, id⟩ id { emit := false } wl)
  | _, _ => .escapes

/-- A transfer of 64 bytes is simulated. -/
example : estimate 64 = .stats 0 := by decide +kernel

/-- A transfer of no bytes is refused, and the status is 0. -/
example : estimate 0 = .error .workloadValidationFailed ∧
    code (exitStatus (main .exact ⟨id, id⟩ id ⟨oneTransfer 0, .missing, true⟩ { workload := "w.json", cycles := 1000 })) =
      some 0 := by
  constructor <;> decide +kernel

example : Usable { workload := "w.json" } := ⟨by decide, by decide, by decide, by decide⟩

end NPE.Props
