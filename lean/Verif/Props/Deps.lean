import Verif.Proofs.Waits
import Verif.Props.Sample
import Mathlib.Order.WellFounded
import Mathlib.Data.Prod.Lex

/-
Properties C19-C21 and C23-C25 of dependency generation, and the start cycles of C16 without
wrap-around.
-/

namespace NPE.Props
open NPE NPE.Spec

/-- The relation "waits for" after set-up, as triples (transfer, awaited transfer, delay); used in
the concrete cases. -/
def waitList (fp : FP) (dev : Device) (wl : Workload) : Out (List (Nat × Nat × Nat)) :=
  initSim fp dev ⟨id, id⟩ wl >>= fun s => .ok <|
    s.ts.zipIdx.flatMap fun (ti, i) => s.ts.zipIdx.filterMap fun (tj, j) =>
      if ti.dependsOn ∈ tj.requiredBy then
        (s.deps[ti.dependsOn.toNat]?).map fun cp => (i, j, cp.delay)
      else none

/-! ### C19: two-deep serialisation -/

/-- Two transfers on chip 0 and one on chip 1 of an N300, all from grid position (1,1). -/
def crossChip : Workload :=
  Workload.addPhase {} { transfers := [
    Transfer.make 64 1 ⟨0, 1, 1⟩ (.unicast ⟨0, 2, 2⟩) 1 0 .noc0,
    Transfer.make 64 1 ⟨0, 1, 1⟩ (.unicast ⟨0, 2, 2⟩) 1 0 .noc0,
    Transfer.make 64 1 ⟨1, 1, 1⟩ (.unicast ⟨1, 2, 2⟩) 1 0 .noc0] }

/-- C19 is violated: the chip is not part of the bucket key, so that a transfer on chip 1 waits for
a transfer of chip 0. -/
theorem C19_violated :
    createDeviceModel .exact "N300" = .ok (wormhole .exact true 2) ∧
    waitList .exact (wormhole .exact true 2) crossChip = .ok [(2, 0, 0)] := by
  constructor
  · rfl
  · decide +kernel

/-- C19, partial.  At any time of a run, a transfer that names no parent waits for exactly the
transfer two places before it among the transfers with the same NoC, source grid position and kind
of first link, ordered by scheduled offset and id, and for no other; the delay is zero.  Missing
for the full claim: the chip (see the witness). -/
theorem C19_partial (cfg : SimCfg) (hr : OnlyBandwidth cfg.rates) (ho : HashOrder)
    (hb : ∀ l, (ho.buckets l).Perm l) (wl : Workload) (s0 : Sim)
    (h0 : initSim cfg.fp cfg.dev ho wl = .ok s0) (c : Nat) (s : Sim) (hs : Reach cfg s0 c s)
    (i : Nat) (t : TState) (ht : s.ts[i]? = some t) (hp : ¬ NamesParent t.params) (j d : Nat) :
    WaitsFor s i j d ↔ d = 0 ∧ TwoBefore (SameLane cfg.dev) s j i := by
  have hi0 := init_inv h0
  obtain ⟨ts, I⟩ := init0 h0
  obtain ⟨ss1, ss2⟩ := hs.sameStatic hr hi0
  obtain ⟨t0, ht0, e, _⟩ := hs.static_get hr hi0 ht
  rw [hs.waitsFor_iff hr hi0, I.waits_niu hb ht0 (by rw [e]; exact hp)]
  have hl := sameLane_static cfg.dev
  exact ⟨fun h => ⟨h.1, TwoBefore.congr hl ss2 ss1 h.2⟩, fun h => ⟨h.1, TwoBefore.congr hl ss1 ss2 h.2⟩⟩

/-- C19.  On one chip the claim holds in full: transfers that name no parent wait for the transfer
two places before them among those that leave the same core on the same NoC over the same kind of
first link. -/
theorem C19_one_chip (cfg : SimCfg) (hr : OnlyBandwidth cfg.rates) (ho : HashOrder)
    (hb : ∀ l, (ho.buckets l).Perm l) (wl : Workload) (chip : Int)
    (hc : ∀ t ∈ wl.transfers, t.src.dev = chip) (s0 : Sim)
    (h0 : initSim cfg.fp cfg.dev ho wl = .ok s0) (c : Nat) (s : Sim) (hs : Reach cfg s0 c s)
    (i : Nat) (t : TState) (ht : s.ts[i]? = some t) (hp : ¬ NamesParent t.params) (j d : Nat) :
    WaitsFor s i j d ↔ d = 0 ∧ TwoBefore (SameCoreLane cfg.dev) s j i := by
  rw [C19_partial cfg hr ho hb wl s0 h0 c s hs i t ht hp]
  have hi0 := init_inv h0
  have hdev : ∀ (x : Nat) (u : TState), s.ts[x]? = some u → u.params.src.dev = chip := by
    intro x u hu
    obtain ⟨u0, hu0, e, _⟩ := hs.static_get hr hi0 hu
    rw [← e]
    exact hc _ ((initSim_ok h0).1.slots x u0 hu0).1
  have hiff : ∀ a b, LaneMates (SameLane cfg.dev) s a b ↔ LaneMates (SameCoreLane cfg.dev) s a b := by
    intro a b
    constructor
    · rintro ⟨ta, tb, h1, h2, h3, h4, h5, h6⟩
      refine ⟨ta, tb, h1, h2, h3, ?_, h6⟩
      have e1 := hdev _ _ h1
      have e2 := hdev _ _ h2
      cases hx : ta.params.src; cases hy : tb.params.src
      simp only [hx, hy] at *
      simp [*]
    · rintro ⟨ta, tb, h1, h2, h3, h4, h6⟩
      exact ⟨ta, tb, h1, h2, h3, by rw [h4], by rw [h4], h6⟩
  unfold TwoBefore
  simp only [hiff]

/-- Five transfers in one lane, scheduled out of order: the chain follows the offsets, ties by
id. -/
example : waitList .exact Sample.dev (Sample.wl
    [Sample.tr 1 50, Sample.tr 1 10, Sample.tr 1 10, Sample.tr 1 0, Sample.tr 1 20]) =
    .ok [(0, 2, 0), (2, 3, 0), (4, 1, 0)] := by decide +kernel

/-! ### C20: consistency -/

/-- C20.  Set-up never ends in the failed self check (`exit(1)`), for any workload, device and hash
order. -/
theorem C20_no_exit (fp : FP) (dev : Device) (ho : HashOrder) (wl : Workload) :
    initSim fp dev ho wl ≠ .exit := initSim_ne_exit fp dev ho wl

/-- C20.  At any time of a run every transfer either has no dependency, or there is exactly one
transfer (of this run) that provides it. -/
theorem C20_consistent (cfg : SimCfg) (hr : OnlyBandwidth cfg.rates) (ho : HashOrder)
    (wl : Workload) (s0 : Sim) (h0 : initSim cfg.fp cfg.dev ho wl = .ok s0) (c : Nat) (s : Sim)
    (hs : Reach cfg s0 c s) (i : Nat) (t : TState) (ht : s.ts[i]? = some t) :
    (t.dependsOn = -1 ∧ ∀ j d, ¬ WaitsFor s i j d) ∨
    ∃ j d, j < wl.transfers.length ∧ WaitsFor s i j d ∧
      ∀ j' d', WaitsFor s i j' d' → j' = j ∧ d' = d := by
  have hi0 := init_inv h0
  rcases (hs.inv hr hi0).waits_cases ht with h | ⟨j, d, h1, h2⟩
  · exact Or.inl h
  · refine Or.inr ⟨j, d, ?_, h1, h2⟩
    obtain ⟨_, _, _, _, hj, _⟩ := h1
    have := (List.getElem?_eq_some_iff.mp hj).1
    have hlen := congrArg List.length (hs.stat hr hi0)
    rw [List.length_map, List.length_map, (initSim_ok h0).1.len] at hlen
    omega

/-! ### C21: no deadlock -/

/-- C21.  A transfer that names no parent only waits for earlier transfers. -/
theorem C21_waits_for_earlier (cfg : SimCfg) (hr : OnlyBandwidth cfg.rates) (ho : HashOrder)
    (hb : ∀ l, (ho.buckets l).Perm l) (wl : Workload) (s0 : Sim)
    (h0 : initSim cfg.fp cfg.dev ho wl = .ok s0) (c : Nat) (s : Sim) (hs : Reach cfg s0 c s)
    (i : Nat) (t : TState) (ht : s.ts[i]? = some t) (hp : ¬ NamesParent t.params) (j d : Nat)
    (hw : WaitsFor s i j d) : Earlier s j i :=
  ((C19_partial cfg hr ho hb wl s0 h0 c s hs i t ht hp j d).mp hw).2.2.1

/-- C21.  In a workload without group parents, whenever some transfer is not completed there is
one that is not completed and does not wait for a transfer that is not completed. -/
theorem C21_no_deadlock (cfg : SimCfg) (hr : OnlyBandwidth cfg.rates) (ho : HashOrder)
    (hb : ∀ l, (ho.buckets l).Perm l) (wl : Workload)
    (hp : ∀ t ∈ wl.transfers, ¬ NamesParent t) (s0 : Sim)
    (h0 : initSim cfg.fp cfg.dev ho wl = .ok s0) (c : Nat) (s : Sim) (hs : Reach cfg s0 c s)
    (k : Nat) (hk : k < wl.transfers.length) (hkc : ¬ Completed s k) :
    ∃ i, i < wl.transfers.length ∧ ¬ Completed s i ∧
      ∀ j d, WaitsFor s i j d → Completed s j := by
  have hi0 := init_inv h0
  have hlen : s.ts.length = wl.transfers.length := by
    have hlen := congrArg List.length (hs.stat hr hi0)
    rw [List.length_map, List.length_map, (initSim_ok h0).1.len] at hlen
    exact hlen
  let f : Nat → Nat ×ₗ Nat := fun i => toLex (((s.ts[i]?).map (·.params.offset)).getD 0, i)
  let S : Set Nat := {i | i < wl.transfers.length ∧ ¬ Completed s i}
  have hwf : WellFounded (fun a b : Nat => f a < f b) := InvImage.wf f wellFounded_lt
  obtain ⟨i, ⟨hi1, hi2⟩, hmin⟩ := hwf.has_min S ⟨k, hk, hkc⟩
  refine ⟨i, hi1, hi2, ?_⟩
  intro j d hw
  have ht : s.ts[i]? = some (s.ts[i]'(by omega)) := List.getElem?_eq_getElem (by omega)
  have hnp : ¬ NamesParent (s.ts[i]'(by omega)).params := by
    obtain ⟨t0, ht0, e, _⟩ := hs.static_get hr hi0 ht
    rw [← e]
    exact hp _ ((initSim_ok h0).1.slots i t0 ht0).1
  obtain ⟨tj, ti, h1, h2, h3⟩ := C21_waits_for_earlier cfg hr ho hb wl s0 h0 c s hs i _ ht hnp j d hw
  by_contra hj
  refine hmin j ⟨?_, hj⟩ ?_
  · have := (List.getElem?_eq_some_iff.mp h1).1
    omega
  · show toLex _ < toLex _
    rw [Prod.Lex.toLex_lt_toLex]
    simp only [h1, h2, Option.map_some, Option.getD_some]
    exact h3

/-- A group member that is its own parent waits for itself: the restriction to workloads without
parents is needed. -/
example : waitList .exact Sample.dev (Sample.wl [{ Sample.tr 1 0 with groupId := 0, groupIdx := 0, groupParent := 0 }]) =
    .ok [(0, 0, 50)] := by decide +kernel

/-! ### C16 without wrap-around, C23: segments run in order -/

/-- C16.  With timesteps of at most 500,000,000 cycles nothing wraps around: a transfer that has
left the waiting state started at the maximum of its scheduled offset and the end of the transfer
it waits for plus the delay; that transfer is completed. -/
theorem C16_no_wrap (cfg : SimCfg) (hr : OnlyBandwidth cfg.rates) (hcpt : cfg.cpt ≤ 500000000)
    (ho : HashOrder) (hb : ∀ l, (ho.buckets l).Perm l) (wl : Workload)
    (hsz : ∀ t ∈ wl.transfers, t.packetSize < 4294967296) (s0 : Sim)
    (h0 : initSim cfg.fp cfg.dev ho wl = .ok s0) (c : Nat) (s : Sim) (hs : Reach cfg s0 c s)
    (i : Nat) (t : TState) (ht : s.ts[i]? = some t) (hn : ¬ Waiting s i) (j d : Nat)
    (hw : WaitsFor s i j d) :
    Completed s j ∧ ∃ tj, s.ts[j]? = some tj ∧ t.start = max t.params.offset (tj.endc + d) ∧
      tj.endc + d ≤ c := by
  have hi0 := init_inv h0
  obtain ⟨h1, tj, h2, h3, h4⟩ := (hs.inv hr hi0).waits_started hw hn ht
  have hd := delay_le h0 hb hsz ((hs.waitsFor_iff hr hi0 i j d).mp hw)
  have he : tj.endc ≤ 2000000000 := by
    refine hs.endc_le hr hcpt hi0 ?_ j tj h2
    intro u hu
    obtain ⟨x, hx⟩ := List.mem_iff_getElem?.mp hu
    exact ((initSim_ok h0).1.slots x u hx).2.2.2.1
  rw [Nat.mod_eq_of_lt (by omega)] at h3 h4
  exact ⟨h1, tj, h2, h4, h3⟩

/-- The third transfer of a lane starts at the end of the first one, which is past its own offset. -/
example : Sample.result [Sample.tr 200 0, Sample.tr 1 0, Sample.tr 64 10] false =
    some (384, [(0, 200, 200), (0, 1, 1), (200, 320, 64)]) := by decide +kernel

/-- C23.  A grouped transfer that has left the waiting state starts no earlier than the end of the
(unique) member of its group that it names as its parent, plus 40 cycles, plus 10 cycles per hop of
its own route, plus, if its source is on another chip than the parent's, 600 cycles and 0.1055
cycles per byte of a packet (up to the rounding of `float`, a relative 2^-21, and one cycle). -/
theorem C23_segments_in_order (cfg : SimCfg) (hr : OnlyBandwidth cfg.rates)
    (hcpt : cfg.cpt ≤ 500000000) (ho : HashOrder) (hb : ∀ l, (ho.buckets l).Perm l) (wl : Workload)
    (hsz : ∀ t ∈ wl.transfers, t.packetSize < 4294967296) (s0 : Sim)
    (h0 : initSim cfg.fp cfg.dev ho wl = .ok s0) (c : Nat) (s : Sim) (hs : Reach cfg s0 c s)
    (i j : Nat) (t p : TState) (ht : s.ts[i]? = some t) (hn : ¬ Waiting s i)
    (hpar : NamesParent t.params) (hp : s.ts[j]? = some p) (hip : IsParent p.params t.params)
    (huniq : ∀ j' p', s.ts[j']? = some p' → IsParent p'.params t.params → j' = j) :
    Completed s j ∧ ∃ e, t.params.dst = .unicast e ∧
      (p.params.src.dev = t.params.src.dev →
        p.endc + 40 + 10 * hops 12 10 t.params.noc t.params.src e ≤ t.start) ∧
      (p.params.src.dev ≠ t.params.src.dev →
        p.endc + (640 + 10 * hops 12 10 t.params.noc t.params.src e +
          1055 / 10000 * t.params.packetSize : ℚ) * (1 - 1 / 2097152) - 1 ≤ t.start) := by
  have hi0 := init_inv h0
  obtain ⟨ts, I⟩ := init0 h0
  obtain ⟨t0, ht0, e0, _⟩ := hs.static_get hr hi0 ht
  obtain ⟨p0, hp0, ep, _⟩ := hs.static_get hr hi0 hp
  obtain ⟨pp0, hpp0, epp, _⟩ := I.get hp0
  -- the map of group members finds the parent
  have hj : parentOf (groupMap ts) t0.params = j := by
    unfold parentOf
    cases hlk : (groupMap ts).lookup (t0.params.groupId, t0.params.groupParent) with
    | none =>
      exfalso
      refine groupMap_none (by rw [e0]; exact hpar.1) (by rw [e0]; exact hpar.2) hlk pp0
        (List.mem_of_getElem? hpp0) ?_
      rw [epp, ep, e0]
      exact ⟨hip.1, hip.2.1⟩
    | some q =>
      obtain ⟨tq, hq, g1, g2, g3⟩ := groupMap_some I.dense hlk
      obtain ⟨tq0, hq0, eq, _⟩ := I.get' hq
      obtain ⟨tqs, hqs, eqs, _⟩ := hs.static_get' hr hi0 hq0
      refine huniq q tqs hqs ?_
      unfold IsParent
      rw [eqs, ← eq, g1, g2, ← e0]
      exact ⟨rfl, rfl, g3⟩
  obtain ⟨te0, hte0, ete, _⟩ := I.get ht0
  have hdel := I.delays te0 (List.mem_of_getElem? hte0) (by rw [ete, e0]; exact hpar)
  rw [ete, hj] at hdel
  have hw : WaitsFor s0 i j (groupEdge cfg.fp cfg.dev ts t0.params).d :=
    (I.waits_group ht0 (by rw [e0]; exact hpar) j _).mpr ⟨hj, hdel⟩
  obtain ⟨h1, p', h2, h3, _⟩ := C16_no_wrap cfg hr hcpt ho hb wl hsz s0 h0 c s hs i t ht hn j _
    ((hs.waitsFor_iff hr hi0 i j _).mpr hw)
  rw [hp] at h2
  have := Option.some.inj h2
  subst this
  obtain ⟨e, hdst, _, hsame, hdiff⟩ := groupDelay_ok hdel
  have hdv : devAt ts j = p.params.src.dev := by
    unfold devAt; rw [hpp0]; simp only; rw [epp, ep]
  rw [hdv, e0] at hsame hdiff
  rw [e0] at hdst h3
  have hst : p.endc + (groupEdge cfg.fp cfg.dev ts t.params).d ≤ t.start := by
    rw [h3]; exact le_max_right _ _
  refine ⟨h1, e, hdst, ?_, ?_⟩
  · intro h
    have := hsame h.symm
    omega
  · intro h
    have h4 := (hdiff (fun hc => h hc.symm)).1
    have h5 : (p.endc : ℚ) + ((groupEdge cfg.fp cfg.dev ts t.params).d : ℚ) ≤ (t.start : ℚ) := by
      exact_mod_cast hst
    linarith

/-- Two segments on different chips of an N300. -/
def segments : Workload :=
  Workload.addPhase {} { transfers := [
    Transfer.make 1000 1 ⟨0, 1, 1⟩ (.unicast ⟨0, 2, 2⟩) 1 0 .noc0 "" "" 7 0 (-1),
    Transfer.make 1000 1 ⟨1, 1, 1⟩ (.unicast ⟨1, 2, 2⟩) 1 0 .noc0 "" "" 7 1 0] }

/-- 40 + 10 * 2 + 600 + 105. -/
example : waitList .exact (wormhole .exact true 2) segments = .ok [(1, 0, 765)] := by decide +kernel

/-! ### C24: missing parents -/

/-- Two unrelated transfers; the second one names a parent (index 5) that its group does not
have. -/
def orphan : Workload :=
  Workload.addPhase {} { transfers := [
    Transfer.make 64 1 ⟨0, 1, 1⟩ (.unicast ⟨0, 2, 2⟩) 1 0 .noc0,
    Transfer.make 64 1 ⟨0, 7, 7⟩ (.unicast ⟨0, 8, 8⟩) 1 0 .noc0 "" "" 3 1 5] }

/-- C24 is violated: a missing parent is silently replaced by transfer 0, although that transfer is
in no group. -/
theorem C24_violated :
    orphan.validate (wormhole .exact false 1) = .ok true ∧
    waitList .exact (wormhole .exact false 1) orphan = .ok [(1, 0, 60)] ∧
    orphan.transfers.all (fun p => decide (¬ (p.groupId = 3 ∧ p.groupIdx = 5))) = true := by
  refine ⟨by decide +kernel, by decide +kernel, by decide +kernel⟩

/-- C24, partial.  If the named parent exists, a grouped transfer waits for a transfer with exactly
that group and index.  Missing for the full claim: absent parents. -/
theorem C24_partial (cfg : SimCfg) (hr : OnlyBandwidth cfg.rates) (ho : HashOrder)
    (wl : Workload) (s0 : Sim) (h0 : initSim cfg.fp cfg.dev ho wl = .ok s0) (c : Nat) (s : Sim)
    (hs : Reach cfg s0 c s) (i : Nat) (t : TState) (ht : s.ts[i]? = some t)
    (hpar : NamesParent t.params) (hex : ∃ p ∈ wl.transfers, IsParent p t.params) (j d : Nat)
    (hw : WaitsFor s i j d) : ∃ p, s.ts[j]? = some p ∧ IsParent p.params t.params := by
  have hi0 := init_inv h0
  obtain ⟨ts, I⟩ := init0 h0
  obtain ⟨t0, ht0, e0, _⟩ := hs.static_get hr hi0 ht
  rw [hs.waitsFor_iff hr hi0, I.waits_group ht0 (by rw [e0]; exact hpar)] at hw
  obtain ⟨hj, _⟩ := hw
  unfold parentOf at hj
  cases hlk : (groupMap ts).lookup (t0.params.groupId, t0.params.groupParent) with
  | none =>
    exfalso
    obtain ⟨p, hp, hip⟩ := hex
    have hperm := init_perm I.state
    obtain ⟨tp, htp, rfl⟩ := List.mem_map.mp (hperm.symm.subset hp)
    refine groupMap_none (by rw [e0]; exact hpar.1) (by rw [e0]; exact hpar.2) hlk tp htp ?_
    rw [e0]
    exact ⟨hip.1, hip.2.1⟩
  | some q =>
    rw [hlk, Option.getD_some] at hj
    subst hj
    obtain ⟨tq, hq, g1, g2, g3⟩ := groupMap_some I.dense hlk
    obtain ⟨tq0, hq0, eq, _⟩ := I.get' hq
    obtain ⟨tqs, hqs, eqs, _⟩ := hs.static_get' hr hi0 hq0
    refine ⟨tqs, hqs, ?_⟩
    unfold IsParent
    rw [eqs, ← eq, g1, g2, ← e0]
    exact ⟨rfl, rfl, g3⟩

/-! ### C25: groups on every device -/

/-- A two-segment group on one chip. -/
def smallGroup : Workload :=
  Workload.addPhase {} { transfers := [
    Transfer.make 64 1 ⟨0, 2, 1⟩ (.unicast ⟨0, 3, 2⟩) 1 0 .noc0 "" "" 3 0 (-1),
    Transfer.make 64 1 ⟨0, 3, 2⟩ (.unicast ⟨0, 4, 2⟩) 1 0 .noc0 "" "" 3 1 0] }

/-- C25 is violated: on Blackhole the missing `break` makes every grouped workload fail. -/
theorem C25_violated :
    smallGroup.validate (blackhole .exact false) = .ok true ∧
    initSim .exact (blackhole .exact false) ⟨id, id⟩ smallGroup = .exc .dependencyGenFailed ∧
    (initSim .exact (wormhole .exact false 1) ⟨id, id⟩ smallGroup).isOk = true := by
  refine ⟨by decide +kernel, by decide +kernel, by decide +kernel⟩

/-- C25 is violated in general: on Blackhole no workload with a named parent gets through set-up. -/
theorem C25_violated_blackhole (fp : FP) (dev : Device) (hd : dev.arch = .blackhole)
    (ho : HashOrder) (wl : Workload) (hp : ∃ t ∈ wl.transfers, NamesParent t) (s0 : Sim) :
    initSim fp dev ho wl ≠ .ok s0 := by
  intro h0
  obtain ⟨ts, I⟩ := init0 h0
  obtain ⟨t, ht, hpt⟩ := hp
  obtain ⟨t0, ht0, rfl⟩ := List.mem_map.mp ((init_perm I.state).symm.subset ht)
  obtain ⟨_, _, ha, _⟩ := groupDelay_ok (I.delays t0 ht0 hpt)
  rw [hd] at ha
  simp at ha

/-- A grouped segment with a multicast destination. -/
def mcastGroup : Workload :=
  Workload.addPhase {} { transfers := [
    Transfer.make 64 1 ⟨0, 2, 1⟩ (.unicast ⟨0, 3, 2⟩) 1 0 .noc0 "" "" 3 0 (-1),
    Transfer.make 64 1 ⟨0, 3, 2⟩ (.mcast [⟨⟨0, 4, 2⟩, ⟨0, 5, 3⟩⟩]) 1 0 .noc0 "" "" 3 1 0] }

/-- C25 is violated on Wormhole, too: a grouped multicast raises `std::bad_variant_access`. -/
theorem C25_violated_multicast :
    mcastGroup.validate (wormhole .exact false 1) = .ok true ∧
    initSim .exact (wormhole .exact false 1) ⟨id, id⟩ mcastGroup = .std .badVariantAccess := by
  refine ⟨by decide +kernel, by decide +kernel⟩

end NPE.Props
