import Verif.Spec.Workload
import Verif.Proofs.Workload
import Verif.Proofs.Binary

/-
Properties C01, C02, C03, C04, C12, C39, C40, C41: workloads.
-/

namespace NPE.Props
open NPE Workload Spec

/-! ### C01: adding phases assigns dense, ordered identifiers -/

/-- C01.  Phase ids are 0,1,2,…; transfer ids read phase by phase are 0,1,…,n-1; each transfer
carries its phase's id; nothing else of a transfer changes. -/
theorem C01_dense_ids (phs : List Phase) :
    let wl := build phs
    let n := (phs.flatMap (·.transfers)).length
    wl.phases.map (·.id) = (List.range phs.length).map (fun (k : Nat) => (k : Int)) ∧
    wl.transfers.map (·.id) = (List.range n).map (fun (k : Nat) => (k : Int)) ∧
    (∀ ph ∈ wl.phases, ∀ t ∈ ph.transfers, t.phaseId = ph.id) ∧
    wl.phases.map (fun p => p.transfers.map content) =
      phs.map (fun p => p.transfers.map content) := by
  have hd : Dense (build phs) := Dense.foldl phs _ Dense.empty
  have hlen : (build phs).phases.length = phs.length := by
    have := foldl_addPhase_phases_length phs {}
    simpa [build] using this
  have hc : (build phs).phases.map (fun p => p.transfers.map content) =
      phs.map (fun p => p.transfers.map content) := by
    have := foldl_addPhase_map content (fun _ _ _ => rfl) phs {}
    simpa [build] using this
  have hn : (build phs).transfers.length = (phs.flatMap (·.transfers)).length := by
    have h2 := congrArg (fun l : List (List Transfer) => l.flatten.length) hc
    simp only [List.length_flatten, List.map_map] at h2
    simp only [transfers, List.length_flatMap]
    simpa [Function.comp_def] using h2
  refine ⟨?_, ?_, hd.phase, hc⟩
  · rw [hd.phaseIds, hlen]
  · rw [hd.ids, hd.gbl, hn]

/-- A sample transfer. -/
def sampleT (src : Coord) (dst : Dest) : Transfer := Transfer.make 1024 4 src dst (281/10) 0 .noc0

/-- C01, concrete case: stale ids, an empty phase in the middle. -/
example : (build [⟨[sampleT ⟨0,1,1⟩ (.unicast ⟨0,2,2⟩), { sampleT ⟨0,1,1⟩ (.unicast ⟨0,2,2⟩) with id := 77 }], 5⟩,
    ⟨[], 9⟩, ⟨[sampleT ⟨0,1,1⟩ (.unicast ⟨0,2,2⟩)], 5⟩]).transfers.map (fun t => (t.phaseId, t.id)) =
    [(0, 0), (0, 1), (2, 2)] := by decide +kernel

/-! ### C02: validation accepts exactly the well-formed unicast workloads -/

theorem onGrid_iff (dev : Device) (c : Coord) :
    validCoord dev c = true ↔ OnGrid dev.rows dev.cols c := by
  simp [validCoord, OnGrid]

theorem validate_unicast (dev : Device) (t : Transfer) (d : Coord) (h : t.dst = .unicast d) :
    (∃ b, t.validate dev = .ok b) ∧
    (t.validate dev = .ok true ↔ UnicastOk dev.rows dev.cols dev.chips t d) := by
  unfold Transfer.validate
  simp only [h, Dest.deviceIDs]
  refine ⟨⟨_, rfl⟩, ?_⟩
  simp only [Out.ok.injEq, Bool.and_eq_true, decide_eq_true_eq, onGrid_iff, validDst,
    Device.isValidDeviceID]
  constructor
  · rintro ⟨⟨⟨⟨⟨a, b⟩, c⟩, e⟩, f⟩, g⟩
    exact ⟨h, a, b, c, e, f.symm, g⟩
  · rintro ⟨_, a, b, c, e, f, g⟩
    exact ⟨⟨⟨⟨⟨a, b⟩, c⟩, e⟩, f.symm⟩, g⟩

/-- C02.  For a built workload with unicast destinations, validation always answers, and the
answer is true iff every transfer is well formed. -/
theorem C02_validate_iff (dev : Device) (phs : List Phase)
    (huni : ∀ ph ∈ phs, ∀ t ∈ ph.transfers, ∃ d, t.dst = .unicast d) :
    (∃ b, (build phs).validate dev = .ok b) ∧
    ((build phs).validate dev = .ok true ↔
      ∀ ph ∈ phs, ∀ t ∈ ph.transfers, ∃ d, UnicastOk dev.rows dev.cols dev.chips t d) := by
  have hv : ∀ ph ∈ phs, ∀ t ∈ ph.transfers, ∃ b, t.validate dev = .ok b := by
    intro ph hph t ht
    obtain ⟨d, hd⟩ := huni ph hph t ht
    exact (validate_unicast dev t d hd).1
  rw [validate_build dev phs hv]
  refine ⟨⟨_, rfl⟩, ?_⟩
  rw [Out.ok.injEq, decide_eq_true_eq, invalidCount_eq_zero]
  constructor
  · intro h ph hph t ht
    obtain ⟨d, hd⟩ := huni ph hph t ht
    exact ⟨d, (validate_unicast dev t d hd).2.mp (h t (List.mem_flatMap.mpr ⟨ph, hph, ht⟩))⟩
  · intro h t ht
    obtain ⟨ph, hph, ht⟩ := List.mem_flatMap.mp ht
    obtain ⟨d, hd⟩ := h ph hph t ht
    exact (validate_unicast dev t d hd.dst).2.mpr hd

/-- C02, concrete cases on a real device: an accepted and a refused workload (destination row 12
is off the 12-row grid). -/
example : (build [⟨[sampleT ⟨0,1,1⟩ (.unicast ⟨0,11,9⟩)], 0⟩]).validate (wormhole .exact false 1) = .ok true ∧
    (build [⟨[sampleT ⟨0,1,1⟩ (.unicast ⟨0,12,9⟩)], 0⟩]).validate (wormhole .exact false 1) = .ok false := by
  decide +kernel

/-! ### C03: validation checks every multicast destination rectangle (violated) -/

/-- The full claim of C03 for one device: accepted workloads have all multicast corners on the
grid and on the source's chip. -/
def C03_claim (dev : Device) : Prop :=
  ∀ phs : List Phase, (build phs).validate dev = .ok true →
    ∀ ph ∈ phs, ∀ t ∈ ph.transfers, ∀ gs, t.dst = .mcast gs → ∀ g ∈ gs,
      OnGrid dev.rows dev.cols g.lo ∧ OnGrid dev.rows dev.cols g.hi ∧
      g.lo.dev = t.src.dev ∧ g.hi.dev = t.src.dev

/-- C03 does not hold: one good rectangle hides a second one that is off the grid. -/
theorem C03_violated (fp : FP) : ¬ C03_claim (wormhole fp false 1) := by
  intro h
  have := h [⟨[sampleT ⟨0,1,1⟩ (.mcast [⟨⟨0,1,1⟩,⟨0,2,2⟩⟩, ⟨⟨0,50,50⟩,⟨0,60,60⟩⟩])], 0⟩]
    (by rw [validate_build] <;> simp [Transfer.validate, sampleT, Transfer.make, Dest.deviceIDs,
          invalidCount, validCoord, validDst, wormhole, Device.isValidDeviceID])
    _ List.mem_cons_self _ List.mem_cons_self _ rfl ⟨⟨0,50,50⟩,⟨0,60,60⟩⟩ (by simp)
  simp [OnGrid, wormhole] at this

/-- C03 does not hold for chips either: only the first rectangle's chip is compared. -/
theorem C03_violated_chip (fp : FP) : ¬ C03_claim (wormhole fp true 2) := by
  intro h
  have := h [⟨[sampleT ⟨0,1,1⟩ (.mcast [⟨⟨0,1,1⟩,⟨0,2,2⟩⟩, ⟨⟨1,1,1⟩,⟨1,2,2⟩⟩])], 0⟩]
    (by rw [validate_build] <;> simp [Transfer.validate, sampleT, Transfer.make, Dest.deviceIDs,
          invalidCount, validCoord, validDst, wormhole, Device.isValidDeviceID])
    _ List.mem_cons_self _ List.mem_cons_self _ rfl ⟨⟨1,1,1⟩,⟨1,2,2⟩⟩ (by simp)
  simp [sampleT, Transfer.make] at this

theorem validDst_mcast (dev : Device) (gs : List CoordGrid) :
    validDst dev (.mcast gs) = true ↔
      ∃ g ∈ gs, OnGrid dev.rows dev.cols g.lo ∧ OnGrid dev.rows dev.cols g.hi := by
  have key : ∀ (gs : List CoordGrid) (v : Bool),
      gs.foldl (fun v g => v || (validCoord dev g.lo && validCoord dev g.hi)) v = true ↔
        v = true ∨ ∃ g ∈ gs, OnGrid dev.rows dev.cols g.lo ∧ OnGrid dev.rows dev.cols g.hi := by
    intro gs
    induction gs with
    | nil => simp
    | cons g gs ih =>
      intro v
      rw [List.foldl_cons, ih]
      simp only [Bool.or_eq_true, Bool.and_eq_true, onGrid_iff, List.mem_cons, exists_eq_or_imp,
        or_assoc]
  simpa [validDst] using key gs false

/-- C03, what does hold (missing: rectangles after the first valid one).  An accepted workload
has, for every multicast transfer, at least one rectangle with both corners on the grid, and the
first rectangle starts on the source's chip, which exists; with a single rectangle built from
two corners of one chip this is the full claim.  Also packet counts, sizes and sources are
checked for multicasts. -/
theorem C03_partial (dev : Device) (phs : List Phase)
    (hne : ∀ ph ∈ phs, ∀ t ∈ ph.transfers, t.dst ≠ .mcast [])
    (h : (build phs).validate dev = .ok true) :
    ∀ ph ∈ phs, ∀ t ∈ ph.transfers, ∀ gs, t.dst = .mcast gs →
      (1 ≤ t.numPackets ∧ 1 ≤ t.packetSize ∧ OnGrid dev.rows dev.cols t.src ∧
        0 ≤ t.src.dev ∧ t.src.dev < dev.chips) ∧
      (∃ g ∈ gs, OnGrid dev.rows dev.cols g.lo ∧ OnGrid dev.rows dev.cols g.hi) ∧
      (∀ g, gs.head? = some g → g.lo.dev = t.src.dev) ∧
      (∀ g, gs = [g] → OnGrid dev.rows dev.cols g.lo ∧ OnGrid dev.rows dev.cols g.hi ∧
        g.lo.dev = t.src.dev) := by
  have hv : ∀ ph ∈ phs, ∀ t ∈ ph.transfers, ∃ b, t.validate dev = .ok b := by
    intro ph hph t ht
    have := hne ph hph t ht
    unfold Transfer.validate
    rcases hd : t.dst with c | gs
    · exact ⟨_, rfl⟩
    · cases gs with
      | nil => exact absurd hd this
      | cons g gs => exact ⟨_, rfl⟩
  rw [validate_build dev phs hv, Out.ok.injEq, decide_eq_true_eq, invalidCount_eq_zero] at h
  intro ph hph t ht gs hgs
  have hok := h t (List.mem_flatMap.mpr ⟨ph, hph, ht⟩)
  unfold Transfer.validate at hok
  rw [hgs] at hok
  cases gs with
  | nil => exact absurd hgs (hne ph hph t ht)
  | cons g gs =>
    simp only [Dest.deviceIDs, List.map_cons, Out.ok.injEq, Bool.and_eq_true, decide_eq_true_eq,
      onGrid_iff, validDst_mcast, Device.isValidDeviceID] at hok
    obtain ⟨⟨⟨⟨⟨a, b⟩, c⟩, d⟩, e⟩, f⟩ := hok
    refine ⟨⟨a, b, c, f⟩, d, ?_, ?_⟩
    · intro g' hg'; simp at hg'; subst hg'; exact e.symm
    · intro g' hg'
      obtain ⟨rfl, rfl⟩ := List.cons.inj hg'
      obtain ⟨x, hx, h1, h2⟩ := d
      simp at hx; subst hx
      exact ⟨h1, h2, e.symm⟩

/-- C03, concrete case for the partial theorem. -/
example : (build [⟨[sampleT ⟨0,1,1⟩ (.mcast [⟨⟨0,1,1⟩,⟨0,2,2⟩⟩])], 0⟩]).validate
    (wormhole .exact false 1) = .ok true := by decide +kernel

/-- C03, boundary: a multicast destination without rectangles is undefined behaviour in
validation (`front()` of an empty list). -/
theorem C03_empty_multicast_ub (dev : Device) (t : Transfer) (h : t.dst = .mcast []) :
    (build [⟨[t], 0⟩]).validate dev = .ub := by
  have : ∀ p i, ({ t with phaseId := p, id := i } : Transfer).validate dev = .ub := by
    intro p i; simp [Transfer.validate, h, Dest.deviceIDs]
  simp [build, validate, addPhase, assignIds, validatePhase, validateTransfer, this]

/-! ### C04: byte count is packet size times packet count (violated by 32-bit wrap) -/

/-- The full claim of C04. -/
def C04_claim : Prop :=
  ∀ ps np src dst inj off noc, ps < 2^32 → np < 2^32 →
    (Transfer.make ps np src dst inj off noc).totalBytes = ps * np

/-- C04 does not hold: 65536 packets of 65536 bytes count as zero bytes. -/
theorem C04_violated : ¬ C04_claim := by
  intro h
  have := h 65536 65536 ⟨0,1,1⟩ (.unicast ⟨0,1,1⟩) 1 0 .noc0 (by norm_num) (by norm_num)
  simp [Transfer.make] at this

/-- C04 (missing: products of 2^32 and more).  The byte count is right exactly when the product
fits 32 bits. -/
theorem C04_partial (ps np : Nat) (src dst inj off noc) :
    (Transfer.make ps np src dst inj off noc).totalBytes = ps * np ↔ ps * np < 2^32 := by
  simp only [Transfer.make]
  constructor
  · intro h; rw [← h]; exact Nat.mod_lt _ (by norm_num)
  · intro h; exact Nat.mod_eq_of_lt (by simpa using h)

example : (Transfer.make 8192 524287 ⟨0,1,1⟩ (.unicast ⟨0,1,1⟩) 1 0 .noc0).totalBytes = 8192 * 524287 :=
  (C04_partial 8192 524287 _ _ _ _ _).mpr (by norm_num)

/-! ### C12: constructing a multicast destination rejects inverted rectangles (violated) -/

/-- The full claim of C12. -/
def C12_claim : Prop :=
  ∀ a b : Coord, a.dev = b.dev → ((∃ gs, mkMcast a b = .ok gs) ↔ a.row ≤ b.row ∧ a.col ≤ b.col)

/-- C12 does not hold: a rectangle that is inverted in one dimension is accepted. -/
theorem C12_violated : ¬ C12_claim := by
  intro h
  have := (h ⟨0, 1, 5⟩ ⟨0, 3, 2⟩ rfl).mp ⟨[⟨⟨0, 1, 5⟩, ⟨0, 3, 2⟩⟩], rfl⟩
  simp at this

/-- C12 (missing: rejection of rectangles inverted in only one dimension).  Ordered rectangles
are accepted and stored unchanged; corners on different chips and rectangles inverted in both
dimensions are refused with an error. -/
theorem C12_partial (a b : Coord) :
    mkMcast a b = (if a.dev = b.dev ∧ (a.row ≤ b.row ∨ a.col ≤ b.col)
      then .ok [⟨a, b⟩] else .exc .undef) := by
  unfold mkMcast
  by_cases h1 : a.dev = b.dev <;> by_cases h2 : a.row ≤ b.row <;> by_cases h3 : a.col ≤ b.col <;>
    simp [h1, h2, h3]

example : mkMcast ⟨0, 1, 2⟩ ⟨0, 3, 5⟩ = .ok [⟨⟨0, 1, 2⟩, ⟨0, 3, 5⟩⟩] ∧
    mkMcast ⟨0, 4, 6⟩ ⟨0, 3, 5⟩ = .exc .undef := by decide

/-! ### C39: removing local unicast transfers keeps everything else (violated) -/

/-- The full claim of C39. -/
def C39_claim : Prop :=
  ∀ wl : Workload,
    (removeLocalUnicastTransfers wl).phases.map (fun p => p.transfers.map content) =
      wl.phases.map (fun p => (p.transfers.filter (fun t => ¬ IsLocalUnicast t)).map content) ∧
    SameMetadata (removeLocalUnicastTransfers wl) wl

/-- C39 does not hold: multicast transfers are dropped as well. -/
theorem C39_violated_multicast :
    (removeLocalUnicastTransfers
      (build [⟨[sampleT ⟨0,1,1⟩ (.mcast [⟨⟨0,1,1⟩,⟨0,4,4⟩⟩])], 0⟩])).transfers = [] ∧
    ¬ IsLocalUnicast (sampleT ⟨0,1,1⟩ (.mcast [⟨⟨0,1,1⟩,⟨0,4,4⟩⟩])) := by
  decide +kernel

/-- C39 does not hold: the number of registered transfer groups is reset, so later group ids
collide with existing ones. -/
theorem C39_violated_metadata :
    ∃ wl : Workload, (removeLocalUnicastTransfers wl).numTransferGroups ≠ wl.numTransferGroups :=
  ⟨{ numTransferGroups := 3 }, by decide⟩

theorem C39_violated : ¬ C39_claim := by
  intro h
  have := (h (build [⟨[sampleT ⟨0,1,1⟩ (.mcast [⟨⟨0,1,1⟩,⟨0,4,4⟩⟩])], 0⟩])).1
  revert this
  decide +kernel

/-- C39 does not hold for chips: equal tile coordinates on different chips count as local. -/
theorem C39_violated_chips :
    keepNonLocal (sampleT ⟨0,1,1⟩ (.unicast ⟨1,1,1⟩)) = false ∧
    ¬ IsLocalUnicast (sampleT ⟨0,1,1⟩ (.unicast ⟨1,1,1⟩)) := by
  decide +kernel

theorem golden_lookup_set (m : GoldenMap) (k k' : Int) (v : Nat × Nat) :
    (m.set k v).lookup k' = if k' = k then some v else m.lookup k' := by
  unfold GoldenMap.set
  by_cases h : k' = k
  · subst h; simp
  · have h' : (k' == k) = false := by simpa using h
    rw [List.lookup_cons, h', if_neg h]
    induction m with
    | nil => rfl
    | cons e m ih =>
      rcases e with ⟨a, b⟩
      by_cases ha : a = k
      · subst ha
        simp only [List.filter_cons, ne_eq, not_true_eq_false, decide_false, Bool.false_eq_true,
          if_false, ih, List.lookup_cons, h']
      · simp only [List.filter_cons, ne_eq, ha, not_false_eq_true, decide_true, if_true,
          List.lookup_cons, ih]

/-- C39 (missing: multicasts are dropped, metadata other than golden windows is lost).  For a
workload of same-chip unicast transfers with non-negative coordinates the result contains, phase
by phase and in order, exactly the transfers that are not local, renumbered densely; the golden
window of every device is unchanged. -/
theorem C39_partial (wl : Workload)
    (huni : ∀ ph ∈ wl.phases, ∀ t ∈ ph.transfers, ∃ d, t.dst = .unicast d ∧ d.dev = t.src.dev ∧
      0 ≤ d.row ∧ 0 ≤ d.col ∧ 0 ≤ t.src.row ∧ 0 ≤ t.src.col) :
    let r := removeLocalUnicastTransfers wl
    r.phases.map (fun p => p.transfers.map content) =
      wl.phases.map (fun p => (p.transfers.filter (fun t => ¬ IsLocalUnicast t)).map content) ∧
    r.transfers.map (·.id) =
      (List.range r.transfers.length).map (fun (k : Nat) => (k : Int)) ∧
    (∀ k, k ≠ MESH_DEVICE → r.golden.lookup k = wl.golden.lookup k) := by
  intro r
  have hr : r = (wl.phases.map (fun ph => ({ transfers := ph.transfers.filter keepNonLocal } : Phase))).foldl
      addPhase (({} : Workload).setGoldenResultCycles wl.golden) := by
    rw [List.foldl_map]; rfl
  refine ⟨?_, ?_, ?_⟩
  · rw [hr, foldl_addPhase_map content (fun _ _ _ => rfl)]
    simp only [setGoldenResultCycles, List.map_nil, List.nil_append, List.map_map]
    apply List.map_congr_left
    intro ph hph
    simp only [Function.comp]
    congr 1
    apply List.filter_congr
    intro t ht
    obtain ⟨d, hd, hdev, h1, h2, h3, h4⟩ := huni ph hph t ht
    have e : IsLocalUnicast t ↔ (t.src.row.tdiv 2 = d.row.tdiv 2 ∧ t.src.col.tdiv 2 = d.col.tdiv 2) := by
      rw [Int.tdiv_eq_ediv_of_nonneg h1, Int.tdiv_eq_ediv_of_nonneg h2,
        Int.tdiv_eq_ediv_of_nonneg h3, Int.tdiv_eq_ediv_of_nonneg h4]
      unfold IsLocalUnicast
      constructor
      · rintro ⟨d', hd', _, a, b⟩
        rw [hd] at hd'; cases hd'; exact ⟨a.symm, b.symm⟩
      · rintro ⟨a, b⟩; exact ⟨d, hd, hdev, a.symm, b.symm⟩
    simp [keepNonLocal, hd, e, decide_not]
  · have hd : Dense r := by
      rw [hr]
      apply Dense.foldl
      exact ⟨rfl, rfl, rfl, by simp [setGoldenResultCycles]⟩
    rw [← hd.gbl]; exact hd.ids
  · intro k hk
    rw [hr, (foldl_addPhase_other _ _).1]
    simp only [setGoldenResultCycles]
    rw [golden_lookup_set, if_neg hk]

example : ((removeLocalUnicastTransfers (build [⟨[sampleT ⟨0,2,2⟩ (.unicast ⟨0,3,3⟩),
    sampleT ⟨0,1,1⟩ (.unicast ⟨0,2,2⟩)], 0⟩])).transfers.map (fun t => (t.id, t.src))) =
    [(0, ⟨0,1,1⟩)] := by decide +kernel

/-! ### C40: schedule scaling preserves order; scaling by one is the identity (violated) -/

theorem scaleOffset_ok {fp : FP} {s : ℚ} {o r : Nat} (h : scaleOffset fp s o = .ok r) :
    r = (fp.f32.fl (fp.f32.fl o * s)).floor.toNat := by
  unfold scaleOffset at h
  simp only at h
  split_ifs at h
  · simpa using h.symm

/-- C40, order: for every rounding mode and non-negative factor, offsets are never reordered. -/
theorem C40_scale_monotone (fp : FP) (s : ℚ) (hs : 0 ≤ s) (a b ra rb : Nat) (hab : a ≤ b)
    (ha : scaleOffset fp s a = .ok ra) (hb : scaleOffset fp s b = .ok rb) : ra ≤ rb := by
  rw [scaleOffset_ok ha, scaleOffset_ok hb]
  apply Int.toNat_le_toNat
  apply Rat.floor_monotone
  apply fp.f32.mono
  apply mul_le_mul_of_nonneg_right _ hs
  apply fp.f32.mono
  exact_mod_cast hab

example : scaleOffset .exact (1/2) 1001 = .ok 500 ∧ scaleOffset .exact (1/2) 1003 = .ok 501 := by
  constructor <;> (unfold scaleOffset; norm_num [FP.exact, Rounding.exact]; decide +kernel)

/-- The identity half of C40. -/
def C40_claim_identity (fp : FP) : Prop := ∀ o : Nat, o < 2^32 → scaleOffset fp 1 o = .ok o

/-- C40 does not hold in IEEE arithmetic: offset 16777217 becomes 16777216. -/
theorem C40_violated_identity : ¬ C40_claim_identity .ieee := by
  intro h
  have h1 := scaleOffset_ok (h 16777217 (by norm_num))
  have h2 : FP.ieee.f32.fl ((16777217 : Nat) : ℚ) = 16777216 := by exact_mod_cast f32_16777217
  rw [h2, mul_one] at h1
  have h3 : FP.ieee.f32.fl 16777216 = 16777216 := by
    have := FP.ieee.f32.fl_nat (n := 16777216) (by norm_num)
    exact_mod_cast this
  rw [h3] at h1
  revert h1
  decide +kernel

/-- C40 (missing: offsets beyond 2^24).  Scaling by one leaves every offset up to 2^24 unchanged
in every rounding mode, and every offset in exact arithmetic. -/
theorem C40_identity_partial (fp : FP) (o : Nat) (h : o ≤ 2^24) : scaleOffset fp 1 o = .ok o := by
  unfold scaleOffset
  simp only [mul_one, fp.f32.idem, fp.f32.fl_nat (n := o) (by simpa using h)]
  rw [if_pos]
  · rw [show (o : ℚ) = ((o : ℤ) : ℚ) by push_cast; rfl, Rat.floor_intCast]; simp
  · constructor
    · have : (0 : ℚ) ≤ o := by positivity
      linarith
    · have : (o : ℚ) ≤ 2^24 := by exact_mod_cast h
      norm_num at this ⊢; linarith

/-! ### C41: the mesh golden window spans the device windows -/

theorem foldl_min_le (m : GoldenMap) : ∀ init : Nat,
    m.foldl (fun s e => min s e.2.1) init ≤ init ∧
    ∀ e ∈ m, m.foldl (fun s e => min s e.2.1) init ≤ e.2.1 := by
  induction m with
  | nil => intro init; simp
  | cons a m ih =>
    intro init
    obtain ⟨h1, h2⟩ := ih (min init a.2.1)
    refine ⟨le_trans h1 (min_le_left _ _), ?_⟩
    intro e he
    rcases List.mem_cons.mp he with rfl | he
    · exact le_trans h1 (min_le_right _ _)
    · exact h2 e he

theorem foldl_min_attained (m : GoldenMap) : ∀ init : Nat,
    m.foldl (fun s e => min s e.2.1) init = init ∨
    ∃ e ∈ m, m.foldl (fun s e => min s e.2.1) init = e.2.1 := by
  induction m with
  | nil => intro init; simp
  | cons a m ih =>
    intro init
    rcases ih (min init a.2.1) with h | ⟨e, he, h⟩
    · rcases min_choice init a.2.1 with hm | hm
      · left; rw [List.foldl_cons, h, hm]
      · right; exact ⟨a, by simp, by rw [List.foldl_cons, h, hm]⟩
    · right; exact ⟨e, by simp [he], by rw [List.foldl_cons, h]⟩

theorem foldl_max_ge (m : GoldenMap) : ∀ init : Nat,
    init ≤ m.foldl (fun s e => max s e.2.2) init ∧
    ∀ e ∈ m, e.2.2 ≤ m.foldl (fun s e => max s e.2.2) init := by
  induction m with
  | nil => intro init; simp
  | cons a m ih =>
    intro init
    obtain ⟨h1, h2⟩ := ih (max init a.2.2)
    refine ⟨le_trans (le_max_left _ _) h1, ?_⟩
    intro e he
    rcases List.mem_cons.mp he with rfl | he
    · exact le_trans (le_max_right _ _) h1
    · exact h2 e he

theorem foldl_max_attained (m : GoldenMap) : ∀ init : Nat,
    m.foldl (fun s e => max s e.2.2) init = init ∨
    ∃ e ∈ m, m.foldl (fun s e => max s e.2.2) init = e.2.2 := by
  induction m with
  | nil => intro init; simp
  | cons a m ih =>
    intro init
    rcases ih (max init a.2.2) with h | ⟨e, he, h⟩
    · rcases max_choice init a.2.2 with hm | hm
      · left; rw [List.foldl_cons, h, hm]
      · right; exact ⟨a, by simp, by rw [List.foldl_cons, h, hm]⟩
    · right; exact ⟨e, by simp [he], by rw [List.foldl_cons, h]⟩

/-- The mesh window computed from a non-empty map of 32-bit windows: earliest start, latest end. -/
theorem mesh_window (wl : Workload) (m : GoldenMap) (hne : m ≠ [])
    (hr : ∀ e ∈ m, e.2.1 < 2^32 ∧ e.2.2 < 2^32) :
    ∃ s e, (wl.setGoldenResultCycles m).golden.lookup MESH_DEVICE = some (s, e) ∧
      (∀ x ∈ m, s ≤ x.2.1 ∧ x.2.2 ≤ e) ∧ (∃ x ∈ m, s = x.2.1) ∧ (∃ x ∈ m, e = x.2.2) := by
  refine ⟨m.foldl (fun s e => min s e.2.1) 9223372036854775807,
    m.foldl (fun s e => max s e.2.2) 0, ?_, ?_, ?_, ?_⟩
  · simp only [setGoldenResultCycles]
    rw [golden_lookup_set, if_pos rfl]
    obtain ⟨x, hx⟩ := List.exists_mem_of_ne_nil m hne
    have h1 := (foldl_min_le m 9223372036854775807).2 x hx
    have h2 := (hr x hx).1
    rw [Nat.mod_eq_of_lt (by omega : m.foldl (fun s e => min s e.2.1) 9223372036854775807 < 4294967296)]
    have h3 : m.foldl (fun s e => max s e.2.2) 0 < 4294967296 := by
      rcases foldl_max_attained m 0 with h | ⟨y, hy, h⟩
      · rw [h]; norm_num
      · rw [h]; simpa using (hr y hy).2
    rw [Nat.mod_eq_of_lt h3]
  · intro x hx
    exact ⟨(foldl_min_le m _).2 x hx, (foldl_max_ge m 0).2 x hx⟩
  · rcases foldl_min_attained m 9223372036854775807 with h | h
    · obtain ⟨x, hx⟩ := List.exists_mem_of_ne_nil m hne
      have h1 := (foldl_min_le m 9223372036854775807).2 x hx
      have h2 := (hr x hx).1
      omega
    · exact h
  · rcases foldl_max_attained m 0 with h | h
    · obtain ⟨x, hx⟩ := List.exists_mem_of_ne_nil m hne
      have h1 := (foldl_max_ge m 0).2 x hx
      exact ⟨x, hx, by omega⟩
    · exact h

/-- C41.  For a non-empty map of device windows (32-bit values, one entry per device, no entry
for the mesh): the mesh window goes from the earliest device start to the latest device end, the
device windows are unchanged, and setting the retrieved map again changes no window. -/
theorem C41_mesh_window (wl : Workload) (m : GoldenMap) (hne : m ≠ [])
    (hr : ∀ e ∈ m, e.2.1 < 2^32 ∧ e.2.2 < 2^32) (hmesh : ∀ e ∈ m, e.1 ≠ MESH_DEVICE) :
    let w := wl.setGoldenResultCycles m
    (∃ s e, w.golden.lookup MESH_DEVICE = some (s, e) ∧
      (∀ x ∈ m, s ≤ x.2.1 ∧ x.2.2 ≤ e) ∧ (∃ x ∈ m, s = x.2.1) ∧ (∃ x ∈ m, e = x.2.2)) ∧
    (∀ k, k ≠ MESH_DEVICE → w.golden.lookup k = m.lookup k) ∧
    (∀ k, (w.setGoldenResultCycles w.golden).golden.lookup k = w.golden.lookup k) := by
  intro w
  obtain ⟨s, e, h1, h2, ⟨x, hx, hxs⟩, ⟨y, hy, hye⟩⟩ := mesh_window wl m hne hr
  have hk : ∀ k, k ≠ MESH_DEVICE → w.golden.lookup k = m.lookup k := by
    intro k hk
    show (m.set MESH_DEVICE _).lookup k = _
    rw [golden_lookup_set, if_neg hk]
  refine ⟨⟨s, e, h1, h2, ⟨x, hx, hxs⟩, ⟨y, hy, hye⟩⟩, hk, ?_⟩
  -- the map retrieved is (mesh, s, e) :: m
  have hg : w.golden = (MESH_DEVICE, s, e) :: m := by
    have hlk : w.golden.lookup MESH_DEVICE = some (s, e) := h1
    have hf : m.filter (fun e => decide (e.1 ≠ MESH_DEVICE)) = m := by
      rw [List.filter_eq_self]; intro a ha; simpa using hmesh a ha
    have hw : w.golden = m.set MESH_DEVICE (m.foldl (fun s e => min s e.2.1) 9223372036854775807 % 4294967296,
        m.foldl (fun s e => max s e.2.2) 0 % 4294967296) := rfl
    rw [hw] at hlk ⊢
    rw [golden_lookup_set, if_pos rfl] at hlk
    rw [GoldenMap.set, Option.some.inj hlk]
    congr 1
  obtain ⟨s', e', g1, g2, ⟨x', hx', hxs'⟩, ⟨y', hy', hye'⟩⟩ :=
    mesh_window w w.golden (by rw [hg]; simp) (by
      intro z hz
      rw [hg] at hz
      rcases List.mem_cons.mp hz with rfl | hz
      · exact ⟨by rw [hxs]; exact (hr x hx).1, by rw [hye]; exact (hr y hy).2⟩
      · exact hr z hz)
  intro k
  by_cases hkm : k = MESH_DEVICE
  · rw [hkm, g1, h1]
    have ha : s' = s := by
      apply le_antisymm
      · exact (g2 (MESH_DEVICE, s, e) (by rw [hg]; simp)).1
      · rw [hxs']
        rw [hg] at hx'
        rcases List.mem_cons.mp hx' with rfl | hx'
        · exact le_refl _
        · exact (h2 x' hx').1
    have hb : e' = e := by
      apply le_antisymm
      · rw [hye']
        rw [hg] at hy'
        rcases List.mem_cons.mp hy' with rfl | hy'
        · exact le_refl _
        · exact (h2 y' hy').2
      · exact (g2 (MESH_DEVICE, s, e) (by rw [hg]; simp)).2
    rw [ha, hb]
  · show (GoldenMap.set w.golden MESH_DEVICE _).lookup k = _
    rw [golden_lookup_set, if_neg hkm]

example : (({} : Workload).setGoldenResultCycles [(0, 100, 900), (1, 50, 700)]).golden.lookup MESH_DEVICE =
    some (50, 900) := by decide

/-- C41, boundary: for the empty map the mesh window is inverted, (2^32-1, 0). -/
theorem C41_empty_map (wl : Workload) :
    (wl.setGoldenResultCycles []).golden.lookup MESH_DEVICE = some (4294967295, 0) := by
  simp [setGoldenResultCycles, GoldenMap.set]

end NPE.Props
