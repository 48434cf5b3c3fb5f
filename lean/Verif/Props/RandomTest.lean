import Verif.Model.RandomTest
import Verif.Proofs.Sized
import Verif.Props.Example

/-
Property C104: the random test of the Python bindings passes for every draw.
-/

namespace NPE.Props
open NPE NPE.Spec

/-- Transfers of a single phase keep their content. -/
theorem phase_transfers (ts : List Transfer) (golden : GoldenMap) :
    List.Forall₂ (fun u t => content t = content u) ts (buildWith [{ transfers := ts }] golden).transfers := by
  have h : ∀ (p : Int) (n : Nat) (l : List Transfer), List.Forall₂ (fun u t => content t = content u) l
      (Workload.assignIds p n l) := by
    intro p n l
    induction l generalizing n with
    | nil => exact .nil
    | cons d l ih => exact .cons rfl (ih (n + 1))
  have e : (buildWith [{ transfers := ts }] golden).transfers = Workload.assignIds 0 0 ts := by
    simp [buildWith, Workload.build, Workload.addPhase, Workload.transfers, Workload.setGoldenResultCycles]
  rw [e]
  exact h 0 0 ts

/-- Pre-processing that only infers rates sets the injection rates to those of the cores. -/
theorem phase_preprocess (fp : FP) {dev : Device} {cfg : Config} (hinf : cfg.inferInjectionRate = true)
    (hsc : cfg.scaleSchedule = 0) (hrem : cfg.removeLocal = false) {ts : List Transfer} {golden : GoldenMap}
    (hx : ∀ t ∈ ts, Executable dev t) :
    ∃ wl', (Api.mk cfg dev).preprocess fp (buildWith [{ transfers := ts }] golden) = .ok wl' ∧
      wl'.transfers.length = ts.length ∧
      ∀ t ∈ wl'.transfers, ∃ u ∈ ts, ∃ c, dev.getCoreType u.src = .ok c ∧ content t =
        content { u with injectionRate := dev.injRate c } := by
  have hg := phase_transfers ts golden
  have hb : ∀ t ∈ (buildWith [{ transfers := ts }] golden).transfers, ∃ u ∈ ts, content t = content u := fun t ht =>
    forall₂_exists_of_mem_right hg ht
  obtain ⟨w1, h1, h2, h3, h4⟩ := Workload.mapTransfersM_total (f := fun t => do
      let r ← dev.getSrcInjectionRate t.src
      return { t with injectionRate := r }) (wl := buildWith [{ transfers := ts }] golden)
    (fun t t' => ∃ c, dev.getCoreType t.src = .ok c ∧ t' = { t with injectionRate := dev.injRate c }) (by
      intro t ht
      obtain ⟨u, hu, e⟩ := hb t ht
      have e1 : t.src = u.src := congrArg (·.src) e
      have hex := hx u hu
      obtain ⟨ty, hty⟩ := getCoreType_total (dev := dev) (c := u.src) ⟨hex.src.2.1, hex.src.2.2⟩
      refine ⟨{ t with injectionRate := dev.injRate ty }, ?_, ty, by rw [e1]; exact hty, rfl⟩
      unfold Device.getSrcInjectionRate
      rw [e1, hty]; rfl) (by
      intro t t' h
      obtain ⟨r, _, h⟩ := Out.bind_eq_ok.mp h
      rw [← Out.ok.inj h]; exact ⟨rfl, rfl⟩)
  refine ⟨w1, ?_, ?_, ?_⟩
  · unfold Api.preprocess
    simp only
    rw [if_pos hinf]
    unfold Workload.inferInjectionRates
    rw [h1, Out.bind_ok, hsc, hrem]
    simp
  · rw [← h3.length_eq, ← hg.length_eq]
  · intro t' ht'
    obtain ⟨t, ht, c, hc, rfl⟩ := forall₂_exists_of_mem_right h3 ht'
    obtain ⟨u, hu, e⟩ := hb t ht
    have e1 : t.src = u.src := congrArg (·.src) e
    refine ⟨u, hu, c, by rw [← e1]; exact hc, ?_⟩
    have : content { t with injectionRate := dev.injRate c } =
        { content t with injectionRate := dev.injRate c } := rfl
    rw [this, e]
    rfl

/-- With the default configuration, a phase of `n` executable transfers without groups and with packets of at
least 512 bytes moves `q` bytes of every active transfer per timestep if `n q ≤ 391`; so `runNPE` returns
statistics if the deadline of the lanes is within the cycle limit.  (The limits are those of the worst case that
all transfers share a link.) -/
theorem C104_sized (fp : FP) (ho : HashOrder) (hord : ∀ l, (ho.links l).Perm l) (hb : ∀ l, (ho.buckets l).Perm l)
    (ts : List Transfer) (golden : GoldenMap) (hgold : ∃ w, golden.lookup 0 = some w)
    (hx : ∀ t ∈ ts, Executable (wormhole fp false 1) t) (hp : ∀ t ∈ ts, t.groupId = -1)
    (hsize : ∀ t ∈ ts, 512 ≤ t.packetSize) (q : Nat) (hq : 0 < q) (hq24 : q ≤ 391) (hnq : ts.length * q ≤ 391)
    (latest : Nat) (hlatest : ∀ t ∈ ts, t.offset ≤ latest) (most : Nat)
    (hmost : ∀ t ∈ ts, steps q t.totalBytes ≤ most) (hlim : laneDeadline ts.length most latest 128 ≤ 50000000) :
    ∃ api r, Api.make fp {} = .ok api ∧
      api.runNPE fp ho (buildWith [{ transfers := ts }] golden) = .ok (.inl r) := by
  refine ⟨Api.mk {} (wormhole fp false 1), ?_⟩
  have hn : ts.length ≤ 391 := le_trans (Nat.le_mul_of_pos_right _ hq) hnq
  obtain ⟨wl, h1, h4, h5⟩ := phase_preprocess fp (dev := wormhole fp false 1) (cfg := {}) rfl rfl rfl (golden := golden) hx
  have := C22_returns q hq (by omega) fp {} _ (example_api fp) (by decide) ho hord hb
    [{ transfers := ts }] golden ?_ ?_ (Or.inl rfl) (Or.inl rfl) wl h1 ?_ (by rw [h4]; omega)
    ?_ latest ?_ ?_
  · obtain ⟨r, hr⟩ := this
    exact ⟨r, example_api fp, hr⟩
  · intro d h0 h1
    have h1 : d < 1 := h1
    obtain rfl : d = 0 := by omega
    exact hgold
  · intro ph hph t ht
    simp only [List.mem_singleton] at hph
    subst hph
    exact hx t ht
  · intro t ht hn
    obtain ⟨u, hu, c, _, e⟩ := h5 t ht
    have : t.groupId = u.groupId := congrArg (·.groupId) e
    exact hn.1 (this.trans (hp u hu))
  · intro t ht
    obtain ⟨u, hu, c, _, e⟩ := h5 t ht
    have e1 : t.packetSize = u.packetSize := congrArg (·.packetSize) e
    have e2 : t.numPackets = u.numPackets := congrArg (·.numPackets) e
    have e3 : t.injectionRate = (wormhole fp false 1).injRate c := congrArg (·.injectionRate) e
    obtain ⟨b, hb1, hb2⟩ := wormhole_bw_ge fp false 1 (hsize u hu) (n := u.numPackets) (hx u hu).packets
    have hinj : (23 : ℚ) ≤ (wormhole fp false 1).injRate c := by
      cases c <;> exact nat_le_fl fp 23 (by decide) (by norm_num)
    have hm : (17 : ℚ) ≤ min ((wormhole fp false 1).injRate c) b := le_min (by linarith) hb2
    have hqn : (ts.length : ℚ) * q ≤ 391 := by exact_mod_cast hnq
    have hqq : (q : ℚ) ≤ 391 := by exact_mod_cast hq24
    have hnn : (ts.length : ℚ) ≤ 391 := by exact_mod_cast hn
    rw [h4]
    refine ⟨b, 23, by rw [e1, e2]; exact hb1, ?_, ?_, by linarith, ?_, by rw [e3]; exact hinj, ?_⟩
    · rw [e3]
      show (q : ℚ) ≤ (128 : Nat) * _
      push_cast
      linarith
    · rw [e3]
      show _ ≤ ((128 : Nat) : ℚ) * _ * _
      push_cast
      linarith
    · show (23 : ℚ) ≤ 30
      norm_num
    · intro x a hx ha
      unfold Device.getSinkAbsorptionRate at ha
      obtain ⟨ty, _, ha⟩ := Out.bind_eq_ok.mp ha
      rw [← Out.ok.inj ha]
      cases ty
      all_goals first
        | exact nat_le_fl fp 23 (by decide) (by norm_num)
        | (show (23 : ℚ) ≤ 24; norm_num)
  · intro t ht
    obtain ⟨u, hu, c, _, e⟩ := h5 t ht
    have e1 : t.offset = u.offset := congrArg (·.offset) e
    rw [e1]; exact hlatest u hu
  · right
    refine ⟨most, ?_, by decide, by rw [h4]; exact hlim⟩
    intro t ht
    obtain ⟨u, hu, c, _, e⟩ := h5 t ht
    have e1 : t.totalBytes = u.totalBytes := congrArg (·.totalBytes) e
    rw [e1]; exact hmost u hu

/-- C104: the test passes for every draw of any number of transfers up to 64 — in the test it is 64 — under
every rounding and every order of the hash tables. -/
theorem C104 (fp : FP) (ho : HashOrder) (hord : ∀ l, (ho.links l).Perm l) (hb : ∀ l, (ho.buckets l).Perm l)
    (draws : List RandomTest.Draw) (hlen : draws.length ≤ 64) (h : ∀ d ∈ draws, d.Possible) :
    RandomTest.passes fp ho draws = .ok true := by
  have bounds : ∀ t ∈ draws.map RandomTest.Draw.transfer, Executable (wormhole fp false 1) t ∧ t.groupId = -1 ∧
      512 ≤ t.packetSize ∧ t.offset = 0 ∧ t.totalBytes ≤ 34560 := by
    intro t ht
    obtain ⟨d, hd, rfl⟩ := List.mem_map.mp ht
    obtain ⟨⟨k, k1, k2, k3⟩, p1, c1, r1, c2, r2⟩ := h d hd
    have hprod : d.size * d.packets ≤ 3840 * 9 := Nat.mul_le_mul (by omega) (by omega)
    have hprod' : 512 * 2 ≤ d.size * d.packets := Nat.mul_le_mul (by omega) (by omega)
    have e1 : d.transfer.totalBytes = (d.size * d.packets) % 4294967296 := rfl
    refine ⟨⟨?_, ?_, ?_, ?_, ?_, fun h => absurd rfl h⟩, rfl, ?_, rfl, ?_⟩
    · show 1 ≤ d.packets; omega
    · show 1 ≤ d.size ∧ d.size < 4294967296; omega
    · rw [e1]; omega
    · refine ⟨⟨le_rfl, Int.one_pos⟩, ⟨?_, ?_⟩, ?_, ?_⟩
      · show 0 ≤ d.srcRow; omega
      · show d.srcRow < 12; omega
      · show 0 ≤ d.srcCol; omega
      · show d.srcCol < 10; omega
    · refine .core _ ⟨⟨le_rfl, Int.one_pos⟩, ⟨?_, ?_⟩, ?_, ?_⟩ rfl
      · show 0 ≤ d.dstRow; omega
      · show d.dstRow < 12; omega
      · show 0 ≤ d.dstCol; omega
      · show d.dstCol < 10; omega
    · show 512 ≤ d.size; omega
    · rw [e1]; omega
  have hl : (draws.map RandomTest.Draw.transfer).length = draws.length := List.length_map ..
  obtain ⟨api, r, h1, h2⟩ := C104_sized fp ho hord hb (draws.map RandomTest.Draw.transfer) [(0, (0, 32))] ⟨_, rfl⟩
    (fun t ht => (bounds t ht).1) (fun t ht => (bounds t ht).2.1) (fun t ht => (bounds t ht).2.2.1) 6 (by decide) (by decide)
    (by rw [hl]; omega) 0 (fun t ht => (bounds t ht).2.2.2.1.le) 5760
    (fun t ht => by have := (bounds t ht).2.2.2.2; unfold steps; omega)
    (by
      rw [hl]
      unfold laneDeadline
      have : (draws.length + 1) / 2 ≤ 32 := by omega
      have := Nat.mul_le_mul_right ((5760 + 3) * 128 + 32) this
      omega)
  unfold RandomTest.passes Cli.initApi
  rw [h1]
  simp only [Out.bind_ok]
  have e : RandomTest.workload draws = buildWith [{ transfers := draws.map RandomTest.Draw.transfer }] [(0, (0, 32))] := rfl
  rw [e, h2]
  rfl

/-- The largest transfer of the test, 64 times between the same cores. -/
def worstDraws : List RandomTest.Draw := List.replicate 64 ⟨3840, 9, 1, 1, 7, 7, .noc0⟩

example : RandomTest.passes .ieee ⟨id, List.reverse⟩ worstDraws = .ok true ∧
    ∀ t ∈ (RandomTest.workload worstDraws).transfers, t.totalBytes = 34560 :=
  ⟨C104 .ieee _ (fun _ => List.Perm.refl _) (fun l => List.reverse_perm l) _ (le_of_eq (List.length_replicate ..)) (by
    intro d hd
    rw [List.eq_of_mem_replicate hd]
    exact ⟨⟨15, by decide, by decide, rfl⟩, by decide, by decide, by decide, by decide, by decide⟩), by
    decide +kernel⟩

end NPE.Props
