import Verif.Model.Example
import Verif.Props.Crowd

/-
Property C99: the example program simulates the workload that it builds.
-/

namespace NPE.Props
open NPE NPE.Spec NPE.Example

/-- The claim: whatever the random choices are, the simulation of the workload returns statistics, and
the program ends with status 0. -/
def C99_claim (fp : FP) (ho : HashOrder) (draws : List Draw) : Prop :=
  (∃ api r, Api.make fp {} = .ok api ∧ api.runNPE fp ho (genWorkload draws) = .ok (.inl r)) ∧
    Cli.exitStatus (main fp ho draws) = .ok 0

theorem example_api (fp : FP) : Api.make fp {} = .ok ⟨{}, wormhole fp false 1⟩ := rfl

/-- Drawn transfers can be executed. -/
theorem drawn_executable (fp : FP) {d : Draw} (h : d.Possible) {t : Transfer} (hp : t.numPackets = d.transfer.numPackets)
    (hs : t.packetSize = d.transfer.packetSize) (hb : t.totalBytes = d.transfer.totalBytes)
    (h1 : t.src = d.transfer.src) (h2 : t.dst = d.transfer.dst) (h3 : t.groupId = -1) :
    Executable (wormhole fp false 1) t := by
  have hsz := h.size
  have e1 : d.transfer.totalBytes = d.size % 4294967296 := by
    show (d.size * 1) % 4294967296 = _
    rw [Nat.mul_one]
  have hr : 1 ≤ d.size ∧ d.size ≤ 8192 := by
    simp only [List.mem_cons, List.not_mem_nil, or_false] at hsz
    omega
  have a := h.srcRow
  have b := h.srcCol
  have c := h.dstRow
  have e := h.dstCol
  refine ⟨by rw [hp]; exact le_rfl, ?_, ?_, ?_, ?_, fun h => absurd h3 h⟩
  · rw [hs]; show 1 ≤ d.size ∧ d.size < 4294967296; omega
  · rw [hb, e1]; omega
  · rw [h1]
    refine ⟨⟨le_rfl, Int.one_pos⟩, ⟨a.1, ?_⟩, ?_, ?_⟩
    · show d.srcRow < 12; omega
    · show 0 ≤ d.srcCol; omega
    · show d.srcCol < 10; omega
  · rw [h1, h2]
    refine .core _ ⟨⟨le_rfl, Int.one_pos⟩, ⟨c.1, ?_⟩, ?_, ?_⟩ rfl
    · show d.dstRow < 12; omega
    · show 0 ≤ d.dstCol; omega
    · show d.dstCol < 10; omega

/-- The transfers of the workload are the drawn ones, up to their identifiers. -/
theorem gen_transfers (draws : List Draw) :
    List.Forall₂ (fun d t => content t = content d.transfer) draws (genWorkload draws).transfers := by
  have h : ∀ (p : Int) (n : Nat) (l : List Draw), List.Forall₂ (fun d t => content t = content (Draw.transfer d)) l
      (Workload.assignIds p n (l.map Draw.transfer)) := by
    intro p n l
    induction l generalizing n with
    | nil => exact .nil
    | cons d l ih => exact .cons rfl (ih (n + 1))
  have e : (genWorkload draws).transfers = Workload.assignIds 0 0 (draws.map Draw.transfer) := by
    simp [genWorkload, Workload.addPhase, Workload.transfers]
  rw [e]
  exact h 0 0 draws

/-- Pre-processing with the default configuration sets the injection rates. -/
theorem gen_preprocess (fp : FP) {draws : List Draw} (h : ∀ d ∈ draws, d.Possible) {wl : Workload}
    (hph : wl.phases = (genWorkload draws).phases) (hD : wl.Dense) :
    ∃ wl', (Api.mk {} (wormhole fp false 1)).preprocess fp wl = .ok wl' ∧ wl'.golden = wl.golden ∧ wl'.Dense ∧
      wl'.transfers.length = draws.length ∧
      ∀ t ∈ wl'.transfers, ∃ d ∈ draws, ∃ c, content t =
        content { d.transfer with injectionRate := (wormhole fp false 1).injRate c } := by
  have htr : wl.transfers = (genWorkload draws).transfers := by
    unfold Workload.transfers; rw [hph]
  have hg := gen_transfers draws
  rw [← htr] at hg
  have hx : ∀ t ∈ wl.transfers, ∃ d ∈ draws, content t = content d.transfer := fun t ht =>
    forall₂_exists_of_mem_right hg ht
  obtain ⟨w1, h1, h2, h3, h4⟩ := Workload.mapTransfersM_total (f := fun t => do
      let r ← (wormhole fp false 1).getSrcInjectionRate t.src
      return { t with injectionRate := r }) (wl := wl)
    (fun t t' => ∃ c, t' = { t with injectionRate := (wormhole fp false 1).injRate c }) (by
      intro t ht
      obtain ⟨d, hd, e⟩ := hx t ht
      have e' : ∀ {β : Type} (f : Transfer → β), f (content t) = f (content d.transfer) := fun f => congrArg f e
      have hex := drawn_executable fp (h d hd) (t := t) (e' (·.numPackets)) (e' (·.packetSize)) (e' (·.totalBytes))
        (e' (·.src)) (e' (·.dst)) (e' (·.groupId))
      obtain ⟨ty, hty⟩ := getCoreType_total (dev := wormhole fp false 1) (c := t.src) ⟨hex.src.2.1, hex.src.2.2⟩
      refine ⟨{ t with injectionRate := (wormhole fp false 1).injRate ty }, ?_, ty, rfl⟩
      unfold Device.getSrcInjectionRate
      rw [hty]; rfl) (by
      intro t t' h
      obtain ⟨r, _, h⟩ := Out.bind_eq_ok.mp h
      rw [← Out.ok.inj h]; exact ⟨rfl, rfl⟩)
  refine ⟨w1, ?_, h2, h4 hD, ?_, ?_⟩
  · unfold Api.preprocess
    rw [if_pos rfl]
    unfold Workload.inferInjectionRates
    simp only
    rw [h1, Out.bind_ok]
    simp
  · rw [← h3.length_eq, ← hg.length_eq]
  · intro t' ht'
    obtain ⟨t, ht, c, rfl⟩ := forall₂_exists_of_mem_right h3 ht'
    obtain ⟨d, hd, e⟩ := hx t ht
    refine ⟨d, hd, c, ?_⟩
    have : content { t with injectionRate := (wormhole fp false 1).injRate c } =
        { content t with injectionRate := (wormhole fp false 1).injRate c } := rfl
    rw [this, e]
    rfl

/-- What the transfers look like after pre-processing. -/
theorem gen_facts {fp : FP} {d : Draw} (h : d.Possible) {t : Transfer} {c : CoreType}
    (e : content t = content { d.transfer with injectionRate := (wormhole fp false 1).injRate c }) :
    Executable (wormhole fp false 1) t ∧ ¬ NamesParent t ∧ t.offset ≤ 512 ∧ t.totalBytes ≤ 8192 ∧
      t.packetSize = d.size ∧ t.numPackets = 1 ∧ t.injectionRate = (wormhole fp false 1).injRate c ∧
      t.dst = d.transfer.dst := by
  have e' : ∀ {β : Type} (f : Transfer → β), f (content t) =
      f (content { d.transfer with injectionRate := (wormhole fp false 1).injRate c }) := fun f => congrArg f e
  have hsz := h.size
  have hr : 1 ≤ d.size ∧ d.size ≤ 8192 := by
    simp only [List.mem_cons, List.not_mem_nil, or_false] at hsz
    omega
  refine ⟨drawn_executable fp h (e' (·.numPackets)) (e' (·.packetSize)) (e' (·.totalBytes)) (e' (·.src))
    (e' (·.dst)) (e' (·.groupId)), fun hn => hn.1 (e' (·.groupId)), ?_, ?_, e' (·.packetSize), e' (·.numPackets),
    e' (·.injectionRate), e' (·.dst)⟩
  · have := e' (·.offset)
    have h2 := h.offset
    have this : t.offset = d.offset := this
    omega
  · have : t.totalBytes = (d.size * 1) % 4294967296 := e' (·.totalBytes)
    omega

/-- C99 does not hold, for any draw: the workload is valid, but it has no golden window, so that
`std::out_of_range` escapes from the simulation and the program ends with status 1. -/
theorem C99_violated (fp : FP) (ho : HashOrder) (hord : ∀ l, (ho.links l).Perm l) (draws : List Draw)
    (h : ∀ d ∈ draws, d.Possible) :
    (∃ api wl, Api.make fp {} = .ok api ∧ api.preprocess fp (genWorkload draws) = .ok wl ∧
      wl.validate api.dev = .ok true ∧ api.runNPE fp ho (genWorkload draws) = .std .outOfRange) ∧
    Cli.exitStatus (main fp ho draws) = .ok 1 ∧ ¬ C99_claim fp ho draws := by
  have hD : (genWorkload draws).Dense := by
    have h := Workload.Dense.foldl [{ transfers := draws.map Draw.transfer }] {} Workload.Dense.empty
    exact ⟨h.phaseIds, h.ids, h.gbl, h.phase⟩
  obtain ⟨wl, h1, h2, h3, h4, h5⟩ := gen_preprocess fp h rfl hD
  have hx : ∀ t ∈ wl.transfers, Executable (wormhole fp false 1) t := by
    intro t ht
    obtain ⟨d, hd, c, e⟩ := h5 t ht
    exact (gen_facts (h d hd) e).1
  have hd := factory_devices_ok fp "wormhole_b0" _ rfl
  obtain ⟨s0, h0⟩ := exec_init (fp := fp) hd hord h3 hx
  have hv := exec_validate_all h3 hx
  have hrun : (Api.mk {} (wormhole fp false 1)).runNPE fp ho (genWorkload draws) = .std .outOfRange := by
    unfold Api.runNPE
    rw [h1, Out.bind_ok, hv, Out.bind_ok, if_pos rfl,
      C38_violated_golden_all fp _ ho wl Nat.one_pos (by rw [h2]; rfl) s0 h0]
    rfl
  have hmain : Cli.exitStatus (main fp ho draws) = .ok 1 := by
    unfold main Example.simulate Cli.initApi
    rw [example_api]
    simp only [Out.bind_ok]
    rw [hrun]
    rfl
  refine ⟨⟨_, wl, example_api fp, h1, hv, hrun⟩, hmain, ?_⟩
  intro hc
  have := hc.2
  rw [hmain] at this
  simp at this

/-- C99 (missing: the workload as it is built, and the status of the program, see `C99_violated`).  If a golden
window is set for the device, the simulation of the 30 transfers returns statistics for every draw, under
every rounding. -/
theorem C99_partial (fp : FP) (ho : HashOrder) (hord : ∀ l, (ho.links l).Perm l) (hb : ∀ l, (ho.buckets l).Perm l)
    (draws : List Draw) (hlen : draws.length = 30) (h : ∀ d ∈ draws, d.Possible) (window : Nat × Nat) :
    ∃ api r, Api.make fp {} = .ok api ∧
      api.runNPE fp ho ((genWorkload draws).setGoldenResultCycles [(0, window)]) = .ok (.inl r) := by
  have hD : ((genWorkload draws).setGoldenResultCycles [(0, window)]).Dense := by
    have h := Workload.Dense.foldl [{ transfers := draws.map Draw.transfer }] {} Workload.Dense.empty
    exact ⟨h.phaseIds, h.ids, h.gbl, h.phase⟩
  obtain ⟨wl, h1, h2, h3, h4, h5⟩ := gen_preprocess fp h (wl := (genWorkload draws).setGoldenResultCycles [(0, window)])
    rfl hD
  rw [hlen] at h4
  refine ⟨Api.mk {} (wormhole fp false 1), ?_⟩
  have := C22_returns 17 (by decide) (by decide) fp {} _ (example_api fp) (by decide) ho hord hb
    [{ transfers := draws.map Draw.transfer }] [(0, window)] ?_ ?_ (Or.inl rfl) (Or.inl rfl) wl h1 ?_ (by rw [h4]; decide)
    ?_ 512 ?_ ?_
  · obtain ⟨r, hr⟩ := this
    exact ⟨r, example_api fp, hr⟩
  · intro d h0 h1
    have h1 : d < 1 := h1
    obtain rfl : d = 0 := by omega
    exact ⟨_, rfl⟩
  · intro ph hph t ht
    simp only [List.mem_singleton] at hph
    subst hph
    obtain ⟨d, hd, rfl⟩ := List.mem_map.mp ht
    exact drawn_executable fp (h d hd) rfl rfl rfl rfl rfl rfl
  · intro t ht
    obtain ⟨d, hd, c, e⟩ := h5 t ht
    exact (gen_facts (h d hd) e).2.1
  · intro t ht
    obtain ⟨d, hd, c, e⟩ := h5 t ht
    obtain ⟨hex, _, _, _, e1, e2, e3, e4⟩ := gen_facts (h d hd) e
    have hps : 0 < t.packetSize := hex.size.1
    obtain ⟨m1, m2, _, _, _, m3⟩ := interpolateBW_eq (fp := fp) (dev := wormhole fp false 1) (wormhole_table fp false 1)
      (size := 8192) (bw := 30) rfl hps (n := 1) (by decide)
    have hinj : (23 : ℚ) ≤ (wormhole fp false 1).injRate c := by
      cases c <;> exact nat_le_fl fp 23 (by decide) (by norm_num)
    have hb30 : (if t.packetSize ≤ 8192 then blended fp 30 (steadyAt fp t.packetSize (wormhole fp false 1).tbt) 1
        else 30) = 30 := by
      split
      · exact blended_one fp m2
      · rfl
    rw [hb30] at m3
    rw [h4]
    refine ⟨30, 23, by rw [e2]; exact m3, ?_, ?_, by norm_num, ?_, by rw [e3]; exact hinj, ?_⟩
    · rw [e3]
      have : (23 : ℚ) ≤ min ((wormhole fp false 1).injRate c) 30 := le_min hinj (by norm_num)
      push_cast
      linarith
    · rw [e3]
      have : (23 : ℚ) ≤ min ((wormhole fp false 1).injRate c) 30 := le_min hinj (by norm_num)
      push_cast
      linarith
    · show (23 : ℚ) ≤ 30
      norm_num
    · intro x a hx ha
      unfold Device.getSinkAbsorptionRate at ha
      obtain ⟨ty, _, ha⟩ := Out.bind_eq_ok.mp ha
      rw [← Out.ok.inj ha]
      cases ty
      all_goals first
        | exact nat_le_fl fp 23 (by decide) (by norm_num)
        | (show (23 : ℚ) ≤ 24; norm_num)
  · intro t ht
    obtain ⟨d, hd, c, e⟩ := h5 t ht
    exact (gen_facts (h d hd) e).2.2.1
  · have hsum : ∀ l : List Transfer, (∀ t ∈ l, t.totalBytes ≤ 8192) →
        (l.map fun t => steps 17 t.totalBytes).sum ≤ 482 * l.length := by
      intro l
      induction l with
      | nil => intro _; exact le_rfl
      | cons t l ih =>
        intro hl
        have h1 := ih fun u hu => hl u (List.mem_cons_of_mem _ hu)
        have h2 := hl t (by simp)
        simp only [List.map_cons, List.sum_cons, List.length_cons]
        have : steps 17 t.totalBytes ≤ 482 := by unfold steps; omega
        omega
    have h6 := hsum wl.transfers (by
      intro t ht
      obtain ⟨d, hd, c, e⟩ := h5 t ht
      exact (gen_facts (h d hd) e).2.2.2.1)
    left
    unfold deadline
    rw [h4] at h6 ⊢
    show 512 + (_ + 2 * 30 + 1) * (0 + 2 * 128 + 32) ≤ 50000000
    omega

/-- The same transfer thirty times. -/
def sampleDraws : List Draw := List.replicate 30 ⟨0, 8, 1, 5, .noc1, 512, 8192⟩

/-- Thirty transfers from the same core to the same DRAM core: the program fails, and with a golden window the
simulation would return statistics. -/
example : Cli.exitStatus (main .exact ⟨id, id⟩ sampleDraws) = .ok 1 ∧
    ∃ api r, Api.make .ieee {} = .ok api ∧
      api.runNPE .ieee ⟨id, id⟩ ((genWorkload sampleDraws).setGoldenResultCycles [(0, (0, 4000))]) = .ok (.inl r) := by
  have h : ∀ d ∈ sampleDraws, d.Possible := by
    intro d hd
    rw [List.eq_of_mem_replicate hd]
    exact ⟨by decide, by decide, by decide, by decide, by decide, by decide⟩
  exact ⟨(C99_violated .exact _ (fun _ => List.Perm.refl _) _ h).2.1,
    C99_partial .ieee _ (fun _ => List.Perm.refl _) (fun _ => List.Perm.refl _) _ (List.length_replicate ..) h _⟩

end NPE.Props
