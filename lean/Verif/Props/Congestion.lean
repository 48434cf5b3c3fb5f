import Verif.Proofs.Blend
import Verif.Proofs.DemandError
import Verif.Proofs.Separate
import Verif.Proofs.Binary
import Verif.Proofs.Timing
import Verif.Props.Sample

/-
Properties C26 to C32 and C62: bandwidths and congestion.
-/

namespace NPE.Props
open NPE NPE.Spec

/-! ### Concrete states for the cases below -/

/-- The state of a transfer before its first timestep, with the route of the device. -/
def fresh (dev : Device) (t : Transfer) : TState :=
  { params := t, start := 0,
    route := match dev.route id t.noc t.src t.dst with | .ok l => l | _ => [] }

/-- A transfer of 100 packets of 8 KiB. -/
def big (s : Coord) (d : Dest) (rate : ℚ) (noc : Noc) : Transfer := Transfer.make 8192 100 s d rate 0 noc

/-- The states after the rate computation of the first timestep. -/
def ratesOf (fp : FP) (dev : Device) (en : Bool) (ts : List TState) (live : List Nat) :
    Out (List TState × Grids) := computeRates fp dev en 0 128 (initGrids dev) ts live

def bws : Out (List TState × Grids) → List ℚ
  | .ok (ts, _) => ts.map (·.bw)
  | _ => []

def statesOf : Out (List TState × Grids) → List TState
  | .ok (ts, _) => ts
  | _ => []

def gridsOf : Out (List TState × Grids) → Grids
  | .ok (_, g) => g
  | _ => ⟨[], [], []⟩

/-- Two transfers over the same link (identifier 5) into the same core, wanting 20 and 15 bytes per
cycle. -/
def crowd : List TState :=
  [big ⟨0, 0, 0⟩ (.unicast ⟨0, 1, 1⟩) 20 .noc0, big ⟨0, 0, 1⟩ (.unicast ⟨0, 1, 1⟩) 15 .noc0].map
    (fresh Sample.dev)

/-! ### C26: congestion only slows transfers down -/

/-- C26.  The congestion model lowers bandwidths or keeps them, and never makes one negative.
Bandwidths of transfers that are not active are not touched. -/
theorem C26_slows (fp : FP) (dev : Device) (hc : Capacities dev) (sot curr : Nat) (hle : sot ≤ curr)
    (ts ts' : List TState) (live : List Nat) (g : Grids) (hs : Sane curr ts live)
    (hf : ∀ i ∈ live, ∀ t, ts[i]? = some t → fp.f32.Rep t.bw)
    (h : modelCongestion fp dev sot curr ts live = .ok (ts', g)) (i : Nat) (t t' : TState)
    (ht : ts[i]? = some t) (ht' : ts'[i]? = some t') :
    t'.bw ≤ t.bw ∧ (i ∈ live → 0 ≤ t'.bw) ∧ (i ∉ live → t' = t) := by
  obtain ⟨_, h2, h3⟩ := derated hc hle hs h
  by_cases hi : i ∈ live
  · obtain ⟨u, d, a1, a2, _, a4, _⟩ := h3 i hi
    rw [ht] at a1
    have e := Option.some.inj a1
    subst e
    rw [ht'] at a2
    rw [Option.some.inj a2]
    have := applyDerate_le (dev := dev) (hs.2 i hi t ht).2.1 (hf i hi t ht) a4.nonneg
    exact ⟨this.2, fun _ => this.1, fun h => absurd hi h⟩
  · rw [h2 i hi, ht] at ht'
    rw [← Option.some.inj ht']
    exact ⟨le_rfl, fun h => absurd h hi, fun _ => rfl⟩

/-- C26, for whole rate computations: a transfer gets at most the bandwidth that it gets with the
congestion model off, which is at most its injection rate; no bandwidth is negative. -/
theorem C26_rates (fp : FP) (dev : Device) (hc : Capacities dev) (hT : TableOk fp dev.tbt)
    (sot curr : Nat) (hle : sot ≤ curr) (ts ts1 ts2 : List TState) (live : List Nat)
    (g g1 g2 : Grids) (hn : live.Nodup)
    (hs : ∀ i ∈ live, ∀ t, ts[i]? = some t → t.start ≤ curr ∧ 0 ≤ t.params.injectionRate ∧
      fp.f32.Rep t.params.injectionRate)
    (h1 : computeRates fp dev true sot curr g ts live = .ok (ts1, g1))
    (h2 : computeRates fp dev false sot curr g ts live = .ok (ts2, g2)) (i : Nat) (hi : i ∈ live) :
    ∃ t t1 t2, ts[i]? = some t ∧ ts1[i]? = some t1 ∧ ts2[i]? = some t2 ∧
      0 ≤ t1.bw ∧ t1.bw ≤ t2.bw ∧ t2.bw ≤ t.params.injectionRate := by
  obtain ⟨_, _, _, r2⟩ := computeRates_bw hn h2
  unfold computeRates at h1
  obtain ⟨tsm, hm, h1⟩ := Out.bind_eq_ok.mp h1
  simp only [if_true] at h1
  have w := updateTransferBandwidth_written hn hm
  have hsane : Sane curr tsm live := by
    refine ⟨hn, fun j hj t ht => ?_⟩
    obtain ⟨t0, b, a1, a2, a3⟩ := w.2.2 j hj
    rw [ht] at a3
    rw [Option.some.inj a3]
    obtain ⟨s1, s2, s3⟩ := hs j hj t0 a1
    exact ⟨s1, (tableBw_ok hT a2).1 s2, s2⟩
  have hrep : ∀ i ∈ live, ∀ t, tsm[i]? = some t → fp.f32.Rep t.bw := by
    intro j hj t ht
    obtain ⟨t0, b, a1, a2, a3⟩ := w.2.2 j hj
    rw [ht] at a3
    rw [Option.some.inj a3]
    exact (tableBw_ok hT a2).2.1 (hs j hj t0 a1).2.2
  obtain ⟨t, b, a1, a2, a3⟩ := w.2.2 i hi
  obtain ⟨t', b', d', b1, b2, b3, b4⟩ := r2 i hi
  rw [a1] at b1
  have e := Option.some.inj b1
  subst e
  rw [a2] at b2
  rw [b4 rfl, ← Out.ok.inj b2] at b3
  obtain ⟨_, _, d3⟩ := derated hc hle hsane h1
  obtain ⟨u, d, c1, c2, _⟩ := d3 i hi
  have := C26_slows fp dev hc sot curr hle tsm ts1 live g1 hsane hrep h1 i _ _ a3 c2
  refine ⟨t, _, _, a1, c2, b3, this.2.1 hi, ?_, ?_⟩
  · exact this.1
  · exact (tableBw_ok hT a2).2.2.1

example : bws (ratesOf .exact Sample.dev true crowd [0, 1]) = [562 / 35, 843 / 70] ∧
    bws (ratesOf .exact Sample.dev false crowd [0, 1]) = [20, 15] := by decide +kernel

/-- The tables and the capacities of all created devices satisfy the hypotheses of C26. -/
theorem C26_devices (fp : FP) (name : String) (dev : Device) (h : createDeviceModel fp name = .ok dev) :
    Capacities dev ∧ TableOk fp dev.tbt := by
  have c1 : ∀ m k, Capacities (wormhole fp m k) := by
    intro m k
    have a1 : (0 : ℚ) ≤ fp.f32.fl (116 / 5) := fp.f32.fl_nonneg (by norm_num)
    have a2 : (0 : ℚ) ≤ fp.f32.fl (281 / 10) := fp.f32.fl_nonneg (by norm_num)
    refine ⟨by norm_num [wormhole], ?_, ?_⟩ <;> intro c <;> cases c <;>
      simp only [wormhole] <;> first | assumption | norm_num
  have c2 : ∀ p, Capacities (blackhole fp p) := by
    intro p
    have a1 : (0 : ℚ) ≤ fp.f32.fl (609 / 10) := fp.f32.fl_nonneg (by norm_num)
    have a2 : (0 : ℚ) ≤ fp.f32.fl (9999 / 10) := fp.f32.fl_nonneg (by norm_num)
    have a3 : (0 : ℚ) ≤ fp.f32.fl (27 / 20) := fp.f32.fl_nonneg (by norm_num)
    have a4 : (0 : ℚ) ≤ fp.f32.fl (fp.f64.fl (54 / fp.f32.fl (27 / 20))) :=
      fp.f32.fl_nonneg (fp.f64.fl_nonneg (by positivity))
    refine ⟨a1, ?_, ?_⟩ <;> intro c <;> cases c <;> simp only [blackhole] <;> assumption
  unfold createDeviceModel at h
  split_ifs at h <;> cases h <;>
    first | exact ⟨c1 _ _, wormhole_table fp _ _⟩ | exact ⟨c2 _, blackhole_table fp _⟩

/-- C59 for the device models: the rate computation of every created device respects the injection
rates, so the bound of `C59_partial` holds for their runs. -/
theorem C59_devices (name : String) (dev : Device) (h : createDeviceModel .exact name = .ok dev)
    (en : Bool) : WithinInjectionRate (computeRates .exact dev en) := by
  obtain ⟨_, hT⟩ := C26_devices .exact name dev h
  intro sot curr g ts live ts' g' hn h i t hi ht h0
  obtain ⟨_, _, _, h4⟩ := computeRates_bw hn h
  obtain ⟨t0, b, d, a1, a2, a3, _⟩ := h4 i hi
  rw [ht] at a3
  have e := Option.some.inj a3
  subst e
  have hb := tableBw_ok hT a2
  exact le_trans (applyDerate_le' (hb.1 h0) rfl) hb.2.2.1

/-! ### C27: links -/

/-- C27.  After derating, the summed bandwidth of the active transfers on a link, weighted with the
part of the timestep in which they are active, is at most the bandwidth of the link. -/
theorem C27_link_capacity (dev : Device) (hc : Capacities dev) (sot curr : Nat) (hlt : sot < curr)
    (hcurr : curr < 4294967296) (ts ts' : List TState) (live : List Nat) (g : Grids)
    (hs : Sane curr ts live)
    (h : modelCongestion .exact dev sot curr ts live = .ok (ts', g)) (l : Int) :
    linkLoad l sot curr ts' live ≤ dev.linkBw := by
  rcases link_bound (acc_exact dev _) hc hlt hcurr hs (fun _ _ _ _ => rfl) h l le_rfl with h1 | ⟨X, _, h0, h1⟩
  · exact le_trans h1 hc.1
  · refine le_trans h1 (le_of_eq ?_)
    have : X ≠ 0 := ne_of_gt h0
    show X * 1 / 1 * (dev.linkBw / X) = _
    field_simp

/-- What rounding adds to the bound of a load. -/
theorem round_bound {B X : ℚ} {n : Nat} (hB : 0 ≤ B) (h0 : 0 < X) (hlen : n ≤ 65536) :
    X * ((1 + 1 / 16777216) / (1 - 1 / 16777216) ^ 3) / (1 - 1 / 16777216) ^ n *
      ((max (B / X) 0 * (1 + 1 / 16777216) + 1 / 16777216) * (1 + 1 / 16777216) ^ 3) ≤
    (B + X / 16777216) * (1 + 1 / 128) := by
  have hne : X ≠ 0 := ne_of_gt h0
  have hq : 0 ≤ B / X := div_nonneg hB h0.le
  rw [max_eq_left hq]
  have hp0 : (255 / 256 : ℚ) ≤ (1 - 1 / 16777216) ^ n := pow_close hlen
  generalize ((1 : ℚ) - 1 / 16777216) ^ n = p at hp0 ⊢
  have hpp : 0 < p := by linarith
  have e : X * ((1 + 1 / 16777216) / (1 - 1 / 16777216) ^ 3) / p *
      ((B / X * (1 + 1 / 16777216) + 1 / 16777216) * (1 + 1 / 16777216) ^ 3) =
      (B * (1 + 1 / 16777216) + X / 16777216) *
        ((1 + 1 / 16777216) ^ 4 / ((1 - 1 / 16777216) ^ 3 * p)) := by
    field_simp
  rw [e]
  have h2 : B * (1 + 1 / 16777216) + X / 16777216 ≤
      (B + X / 16777216) * (1 + 1 / 16777216) := by
    have : 0 ≤ X / 16777216 := by positivity
    nlinarith
  have h3 : (1 + 1 / 16777216 : ℚ) ^ 4 / ((1 - 1 / 16777216) ^ 3 * p) ≤ 1 + 1 / 200 := by
    rw [div_le_iff₀ (by positivity)]
    have : (1 + 1 / 16777216 : ℚ) ^ 4 ≤ (1 + 1 / 200) * ((1 - 1 / 16777216) ^ 3 * (255 / 256)) := by
      norm_num
    refine le_trans this ?_
    gcongr
  have h4 : 0 ≤ B * (1 + 1 / 16777216) + X / 16777216 := by
    have := hB; positivity
  have h5 : 0 ≤ B + X / 16777216 := by have := hB; positivity
  calc _ ≤ (B + X / 16777216) * (1 + 1 / 16777216) * (1 + 1 / 200) := by gcongr
    _ = (B + X / 16777216) * ((1 + 1 / 16777216) * (1 + 1 / 200)) := by ring
    _ ≤ _ := mul_le_mul_of_nonneg_left (by norm_num) h5

/-- C27 for arithmetic with rounding: with up to 65536 active transfers whose routes use no link
twice, the load of a link exceeds its bandwidth by at most one part in 128 plus a 2^24-th of the demand
`X` that is reported for the link. -/
theorem C27_link_capacity_rounded (fp : FP) (dev : Device) (hc : Capacities dev) (sot curr : Nat)
    (hlt : sot < curr) (hcurr : curr < 4294967296) (ts ts' : List TState) (live : List Nat) (g : Grids)
    (hs : Sane curr ts live) (hf : ∀ i ∈ live, ∀ t, ts[i]? = some t → fp.f32.Rep t.bw)
    (hr : ∀ i ∈ live, ∀ t, ts[i]? = some t → t.route.Nodup) (hlen : live.length ≤ 65536)
    (h : modelCongestion fp dev sot curr ts live = .ok (ts', g)) (l : Int) :
    linkLoad l sot curr ts' live ≤ 0 ∨ ∃ X, g.link[l.toNat]? = some X ∧
      linkLoad l sot curr ts' live ≤ (dev.linkBw + X / 16777216) * (1 + 1 / 128) := by
  have hcl := contrib_length (c := linkC fp sot curr l.toNat) (ts := ts) live (fun i hi t ht => by
    unfold linkC
    rw [List.length_replicate]
    exact List.nodup_iff_count_le_one.mp (hr i hi t ht) _)
  rcases link_bound (acc_round fp dev live.length) hc hlt hcurr hs hf h l hcl with h1 | ⟨X, hX, h0, h1⟩
  · exact Or.inl h1
  · exact Or.inr ⟨X, hX, le_trans h1 (round_bound hc.1 h0 hlen)⟩

/-- Before derating the shared link carries 35 bytes per cycle, five more than it can; afterwards
28.1. -/
example : linkLoad 5 0 128 (statesOf (ratesOf .exact Sample.dev false crowd [0, 1])) [0, 1] = 35 ∧
    linkLoad 5 0 128 (statesOf (ratesOf .exact Sample.dev true crowd [0, 1])) [0, 1] = 281 / 10 ∧
    Sample.dev.linkBw = 30 := by decide +kernel

/-! ### C28: sources and sinks -/

/-- C28, sources.  If no active transfer that leaves a core on a NoC has an injection rate above `R`,
then the summed bandwidth leaving the core on this NoC is at most `R` after derating. -/
theorem C28_sources (dev : Device) (hc : Capacities dev) (sot curr : Nat) (hlt : sot < curr)
    (hcurr : curr < 4294967296) (ts ts' : List TState) (live : List Nat) (g : Grids)
    (hs : Sane curr ts live)
    (h : modelCongestion .exact dev sot curr ts live = .ok (ts', g)) (noc : Noc) (c : Coord) (R : ℚ)
    (hR : 0 ≤ R) (hrate : ∀ i ∈ live, ∀ t, ts[i]? = some t → t.params.noc = noc → t.params.src = c →
      t.params.injectionRate ≤ R) :
    srcLoad noc c sot curr ts' live ≤ R := by
  have hA := acc_exact dev
  have hn : ∃ n, ∀ k, (contrib (niuC .exact dev sot curr k) ts live).length ≤ n := by
    refine ⟨(live.map fun i => match ts[i]? with
      | some t => ((loads dev t.params).getD []).length | none => 0).sum, fun k => ?_⟩
    unfold contrib
    rw [List.length_flatMap]
    refine List.sum_le_sum fun i _ => ?_
    cases ts[i]? with
    | none => simp
    | some t => simp only [niuC, List.length_replicate]; exact List.count_le_length
  obtain ⟨n, hn⟩ := hn
  rcases src_bound (hA n) hc hlt hcurr hs (fun _ _ _ _ => rfl) h noc c R hR hrate (fun k _ => hn k.toNat) with
    h1 | ⟨X, _, _, _, h0, h1⟩
  · exact le_trans h1 hR
  · refine le_trans h1 (le_of_eq ?_)
    have : X ≠ 0 := ne_of_gt h0
    show X * 1 / 1 * (R / X) = _
    field_simp

/-- C28, sinks, partial: the summed bandwidth of the unicast transfers into a core is at most the
absorption rate of the core.  Missing: multicast transfers, see `C28_violated`. -/
theorem C28_sinks_partial (dev : Device) (hc : Capacities dev) (sot curr : Nat) (hlt : sot < curr)
    (hcurr : curr < 4294967296) (ts ts' : List TState) (live : List Nat) (g : Grids)
    (hs : Sane curr ts live)
    (h : modelCongestion .exact dev sot curr ts live = .ok (ts', g)) (noc : Noc) (c : Coord) (R : ℚ)
    (hR : dev.getSinkAbsorptionRate c = .ok R) :
    unicastSinkLoad noc c sot curr ts' live ≤ R := by
  have hn : ∃ n, ∀ k, (contrib (niuC .exact dev sot curr k) ts live).length ≤ n := by
    refine ⟨(live.map fun i => match ts[i]? with
      | some t => ((loads dev t.params).getD []).length | none => 0).sum, fun k => ?_⟩
    unfold contrib
    rw [List.length_flatMap]
    refine List.sum_le_sum fun i _ => ?_
    cases ts[i]? with
    | none => simp
    | some t => simp only [niuC, List.length_replicate]; exact List.count_le_length
  obtain ⟨n, hn⟩ := hn
  rcases sink_bound (acc_exact dev n) hc hlt hcurr hs (fun _ _ _ _ => rfl) h noc c R hR (fun k _ => hn k.toNat) with
    h1 | ⟨X, _, _, _, h0, h1⟩
  · exact le_trans h1 (absRate_nonneg hc hR)
  · refine le_trans h1 (le_of_eq ?_)
    have : X ≠ 0 := ne_of_gt h0
    show X * 1 / 1 * (R / X) = _
    field_simp

/-- Before derating core (1,1) receives 35 bytes per cycle; afterwards 28.1, its absorption rate. -/
example : unicastSinkLoad .noc0 ⟨0, 1, 1⟩ 0 128
      (statesOf (ratesOf .exact Sample.dev false crowd [0, 1])) [0, 1] = 35 ∧
    unicastSinkLoad .noc0 ⟨0, 1, 1⟩ 0 128
      (statesOf (ratesOf .exact Sample.dev true crowd [0, 1])) [0, 1] = 281 / 10 ∧
    Sample.dev.getSinkAbsorptionRate ⟨0, 1, 1⟩ = .ok (281 / 10) := by decide +kernel

/-- Two transfers of 20 bytes per cycle each from one core to two others. -/
def fan : List TState :=
  [big ⟨0, 0, 0⟩ (.unicast ⟨0, 0, 1⟩) 20 .noc0, big ⟨0, 0, 0⟩ (.unicast ⟨0, 1, 0⟩) 20 .noc0].map
    (fresh Sample.dev)

example : srcLoad .noc0 ⟨0, 0, 0⟩ 0 128 (statesOf (ratesOf .exact Sample.dev false fan [0, 1])) [0, 1] = 40 ∧
    srcLoad .noc0 ⟨0, 0, 0⟩ 0 128 (statesOf (ratesOf .exact Sample.dev true fan [0, 1])) [0, 1] = 20 := by
  decide +kernel

/-- Multicasts from a DRAM core and from an Ethernet core to the worker core (1,1), over different
links, each with the injection rate of its source. -/
def showers : List TState :=
  [big ⟨0, 1, 0⟩ (.mcast [⟨⟨0, 1, 1⟩, ⟨0, 1, 1⟩⟩]) (116 / 5) .noc0,
   big ⟨0, 0, 1⟩ (.mcast [⟨⟨0, 1, 1⟩, ⟨0, 1, 1⟩⟩]) (281 / 10) .noc0].map (fresh Sample.dev)

/-- C28 is violated for multicast: the worker core absorbs at most 28.1 bytes per cycle, but after
derating two multicasts still deliver 23.2 + 28.1 bytes per cycle to it.  (The running minimum over
the sinks starts at zero, so the demand of the sinks is never used.) -/
theorem C28_violated :
    bws (ratesOf .exact Sample.dev true showers [0, 1]) = [116 / 5, 281 / 10] ∧
    (∀ t ∈ showers, DeliversTo t.params ⟨0, 1, 1⟩) ∧
    Sample.dev.getSrcInjectionRate ⟨0, 1, 0⟩ = .ok (116 / 5) ∧
    Sample.dev.getSrcInjectionRate ⟨0, 0, 1⟩ = .ok (281 / 10) ∧
    Sample.dev.getSinkAbsorptionRate ⟨0, 1, 1⟩ = .ok (281 / 10) := by
  refine ⟨by decide +kernel, ?_, by decide +kernel, by decide +kernel, by decide +kernel⟩
  intro t ht
  simp only [showers, List.map_cons, List.map_nil, List.mem_cons, List.not_mem_nil, or_false] at ht
  rcases ht with rfl | rfl <;> exact ⟨_, List.mem_singleton.mpr rfl, by unfold InRect; decide⟩

/-- In general: a multicast is never slowed down by its sinks. -/
theorem C28_multicast_unlimited (fp : FP) (dev : Device) (g : Grids) (t : Transfer) (gs : List CoordGrid)
    (hg : ∀ x ∈ g.niu, 0 ≤ x) (ht : t.dst = .mcast gs) (d : Option ℚ)
    (h : sinkDerate fp dev g t = .ok d) : d = none := by
  have : GridNonneg ⟨g.niu, [], []⟩ := ⟨by simp, hg, by simp⟩
  refine sinkDerate_mcast (fp := fp) (dev := dev) (g := ⟨g.niu, [], []⟩) this ht ?_
  rw [← h]
  unfold sinkDerate
  rw [ht]

/-! ### C66: demand grids -/

/-- C66.  In exact arithmetic the demand grids of a timestep hold the offered load: every link the summed
bandwidth of the transfers over it, every source interface that of the transfers leaving the core, every
sink interface that of the unicasts to the core and, at worker cores, of the multicasts covering it; each
weighted by the part of the timestep in which the transfer is active. -/
theorem C66_demands (dev : Device) (hd : DeviceOk dev) (sot curr : Nat) (hle : sot ≤ curr)
    (hcurr : curr < 4294967296) (ts ts' : List TState) (live : List Nat) (g : Grids) (hn : live.Nodup)
    (hs : ∀ i ∈ live, ∀ t, ts[i]? = some t → t.start ≤ curr ∧ RectsOk t.params)
    (h : modelCongestion .exact dev sot curr ts live = .ok (ts', g)) :
    (∀ a l, dev.getLinkID a = .ok l → g.link[l.toNat]? =
      some (offered (fun t => t.route.count l) sot curr ts live)) ∧
    (∀ a l, dev.getLinkID a = .ok l → g.mcast[l.toNat]? =
      some (offered (fun t => if t.params.eventType = "WRITE_MULTICAST" then t.route.count l else 0)
        sot curr ts live)) ∧
    (∀ noc c k, dev.niuAt c (srcNiu noc) = .ok k → g.niu[k.toNat]? =
      some (offered (leaves dev noc c) sot curr ts live)) ∧
    (∀ noc c k, dev.niuAt c (sinkNiu noc) = .ok k → g.niu[k.toNat]? =
      some (offered (reaches dev noc c) sot curr ts live)) := by
  obtain ⟨p1, ⟨_, _, _, a1, a2, a3⟩, _⟩ := modelCongestion_parts hn h
  have hl : dev.nLinks ≤ 32768 := hd.ids
  have hrange : ∀ i ∈ live, ∃ t, ts[i]? = some t ∧ (∃ L, loads dev t.params = .ok L) ∧ RectsOk t.params ∧
      effectiveDemand .exact sot curr t = share sot curr t * t.bw := by
    intro i hi
    obtain ⟨t, ht, ⟨⟨L, hL, _⟩, _⟩⟩ := p1 i hi
    obtain ⟨b1, b2⟩ := hs i hi t ht
    exact ⟨t, ht, ⟨L, hL⟩, b2, effectiveDemand_exact hle b1 hcurr⟩
  have hniu : ∀ c ty k, dev.niuAt c ty = .ok k → 0 ≤ k ∧ (initGrids dev).niu[k.toNat]? = some 0 := by
    intro c ty k hk
    unfold Device.niuAt at hk
    obtain ⟨o, e⟩ := getNIUID_ok hl hk
    have := dev.niuIdx_lt _ o
    refine ⟨by omega, ?_⟩
    rw [initGrids_niu, Device.niuTable_length, if_pos (by omega)]
  have hlink : ∀ a l, dev.getLinkID a = .ok l → 0 ≤ l ∧ (initGrids dev).link[l.toNat]? = some 0 ∧
      (initGrids dev).mcast[l.toNat]? = some 0 := by
    intro a l hk
    obtain ⟨o, e⟩ := getLinkID_ok hl hk
    have := dev.linkIdx_lt _ o
    refine ⟨by omega, ?_, ?_⟩
    · rw [initGrids_link, Device.linkTable_length, if_pos (by omega)]
    · rw [initGrids_mcast, Device.linkTable_length, if_pos (by omega)]
  refine ⟨?_, ?_, ?_, ?_⟩
  · intro a l hk
    obtain ⟨l0, l1, _⟩ := hlink a l hk
    rw [a2, l1, Option.map_some, accum_exact, zero_add,
      contrib_offered (w := fun t => t.route.count l)]
    intro i hi
    obtain ⟨t, ht, _, _, he⟩ := hrange i hi
    refine ⟨t, ht, ?_⟩
    unfold linkC
    rw [he, Int.toNat_of_nonneg l0]
  · intro a l hk
    obtain ⟨l0, _, l1⟩ := hlink a l hk
    rw [a3, l1, Option.map_some, accum_exact, zero_add,
      contrib_offered (w := fun t => if t.params.eventType = "WRITE_MULTICAST" then t.route.count l else 0)]
    intro i hi
    obtain ⟨t, ht, _, _, he⟩ := hrange i hi
    refine ⟨t, ht, ?_⟩
    unfold mcastC mcastRoute
    rw [he, Int.toNat_of_nonneg l0]
    by_cases hw : t.params.eventType = "WRITE_MULTICAST"
    · rw [if_pos hw, if_pos hw]
    · rw [if_neg hw, if_neg hw]; simp
  · intro noc c k hk
    obtain ⟨k0, k1⟩ := hniu _ _ _ hk
    rw [a1, k1, Option.map_some, accum_exact, zero_add, contrib_offered (w := leaves dev noc c)]
    intro i hi
    obtain ⟨t, ht, ⟨L, hL⟩, _, he⟩ := hrange i hi
    refine ⟨t, ht, ?_⟩
    unfold niuC
    rw [he, hL, Int.toNat_of_nonneg k0, ← loads_count_src hl hL hk]
    rfl
  · intro noc c k hk
    obtain ⟨k0, k1⟩ := hniu _ _ _ hk
    rw [a1, k1, Option.map_some, accum_exact, zero_add, contrib_offered (w := reaches dev noc c)]
    intro i hi
    obtain ⟨t, ht, ⟨L, hL⟩, hr, he⟩ := hrange i hi
    refine ⟨t, ht, ?_⟩
    unfold niuC
    rw [he, hL, Int.toNat_of_nonneg k0, ← loads_count_sink hl hr hL hk]
    rfl

/-- The two multicasts of the example offer 51.3 bytes per cycle to the worker core (1,1). -/
example : offered (reaches Sample.dev .noc0 ⟨0, 1, 1⟩) 0 128
    (statesOf (ratesOf .exact Sample.dev false showers [0, 1])) [0, 1] = 513 / 10 := by decide +kernel

/-- C66 for arithmetic with rounding: an entry to which at most 65536 demands are added differs from the
offered load by at most one part in 128. -/
theorem C66_demands_rounded (fp : FP) (dev : Device) (hd : DeviceOk dev) (sot curr : Nat) (hlt : sot < curr)
    (hcurr : curr < 4294967296) (ts ts' : List TState) (live : List Nat) (g : Grids) (hn : live.Nodup)
    (hs : ∀ i ∈ live, ∀ t, ts[i]? = some t → t.start ≤ curr ∧ 0 ≤ t.bw ∧ RectsOk t.params)
    (h : modelCongestion fp dev sot curr ts live = .ok (ts', g)) :
    let Close (y : Option ℚ) (w : TState → Nat) := uses w ts live ≤ 65536 → ∃ X, y = some X ∧
      |X - offered w sot curr ts live| ≤ offered w sot curr ts live / 128
    (∀ a l, dev.getLinkID a = .ok l → Close g.link[l.toNat]? (fun t => t.route.count l)) ∧
    (∀ a l, dev.getLinkID a = .ok l → Close g.mcast[l.toNat]?
      (fun t => if t.params.eventType = "WRITE_MULTICAST" then t.route.count l else 0)) ∧
    (∀ noc c k, dev.niuAt c (srcNiu noc) = .ok k → Close g.niu[k.toNat]? (leaves dev noc c)) ∧
    (∀ noc c k, dev.niuAt c (sinkNiu noc) = .ok k → Close g.niu[k.toNat]? (reaches dev noc c)) := by
  intro Close
  obtain ⟨p1, ⟨_, _, _, a1, a2, a3⟩, _⟩ := modelCongestion_parts hn h
  have hl : dev.nLinks ≤ 32768 := hd.ids
  have hrange : ∀ i ∈ live, ∃ t, ts[i]? = some t ∧ (∃ L, loads dev t.params = .ok L) ∧ RectsOk t.params ∧
      t.start ≤ curr ∧ 0 ≤ t.bw := by
    intro i hi
    obtain ⟨t, ht, ⟨⟨L, hL, _⟩, _⟩⟩ := p1 i hi
    obtain ⟨b1, b2, b3⟩ := hs i hi t ht
    exact ⟨t, ht, ⟨L, hL⟩, b3, b1, b2⟩
  have hniu : ∀ c ty k, dev.niuAt c ty = .ok k → 0 ≤ k ∧ (initGrids dev).niu[k.toNat]? = some 0 := by
    intro c ty k hk
    unfold Device.niuAt at hk
    obtain ⟨o, e⟩ := getNIUID_ok hl hk
    have := dev.niuIdx_lt _ o
    refine ⟨by omega, ?_⟩
    rw [initGrids_niu, Device.niuTable_length, if_pos (by omega)]
  have hlink : ∀ a l, dev.getLinkID a = .ok l → 0 ≤ l ∧ (initGrids dev).link[l.toNat]? = some 0 ∧
      (initGrids dev).mcast[l.toNat]? = some 0 := by
    intro a l hk
    obtain ⟨o, e⟩ := getLinkID_ok hl hk
    have := dev.linkIdx_lt _ o
    refine ⟨by omega, ?_, ?_⟩
    · rw [initGrids_link, Device.linkTable_length, if_pos (by omega)]
    · rw [initGrids_mcast, Device.linkTable_length, if_pos (by omega)]
  refine ⟨?_, ?_, ?_, ?_⟩
  · intro a l hk hu
    obtain ⟨l0, l1, _⟩ := hlink a l hk
    rw [a2, l1, Option.map_some]
    refine ⟨_, rfl, entry_close hlt hcurr (fun i hi => ?_) hu⟩
    obtain ⟨t, ht, _, _, h1, h2⟩ := hrange i hi
    refine ⟨t, ht, h1, h2, ?_⟩
    unfold linkC
    rw [Int.toNat_of_nonneg l0]
  · intro a l hk hu
    obtain ⟨l0, _, l1⟩ := hlink a l hk
    rw [a3, l1, Option.map_some]
    refine ⟨_, rfl, entry_close hlt hcurr (fun i hi => ?_) hu⟩
    obtain ⟨t, ht, _, _, h1, h2⟩ := hrange i hi
    refine ⟨t, ht, h1, h2, ?_⟩
    unfold mcastC mcastRoute
    rw [Int.toNat_of_nonneg l0]
    by_cases hw : t.params.eventType = "WRITE_MULTICAST"
    · rw [if_pos hw, if_pos hw]
    · rw [if_neg hw, if_neg hw]; simp
  · intro noc c k hk hu
    obtain ⟨k0, k1⟩ := hniu _ _ _ hk
    rw [a1, k1, Option.map_some]
    refine ⟨_, rfl, entry_close hlt hcurr (fun i hi => ?_) hu⟩
    obtain ⟨t, ht, ⟨L, hL⟩, _, h1, h2⟩ := hrange i hi
    refine ⟨t, ht, h1, h2, ?_⟩
    unfold niuC
    rw [hL, Int.toNat_of_nonneg k0, ← loads_count_src hl hL hk]
    rfl
  · intro noc c k hk hu
    obtain ⟨k0, k1⟩ := hniu _ _ _ hk
    rw [a1, k1, Option.map_some]
    refine ⟨_, rfl, entry_close hlt hcurr (fun i hi => ?_) hu⟩
    obtain ⟨t, ht, ⟨L, hL⟩, hr, h1, h2⟩ := hrange i hi
    refine ⟨t, ht, h1, h2, ?_⟩
    unfold niuC
    rw [hL, Int.toNat_of_nonneg k0, ← loads_count_sink hl hr hL hk]
    rfl

/-- Three transfers of a third of a byte per cycle from one core: in `float` the interface is reported with a
demand that is not the offered one. -/
def thirds : List TState := List.replicate 3 { fresh Sample.dev (big ⟨0, 0, 0⟩ (.unicast ⟨0, 1, 1⟩) 20 .noc0) with
  bw := FP.ieee.f32.fl (1 / 3) }

example : Sample.dev.niuAt ⟨0, 0, 0⟩ (srcNiu .noc0) = .ok 0 ∧
    offered (leaves Sample.dev .noc0 ⟨0, 0, 0⟩) 0 128 thirds [0, 1, 2] = 33554433 / 33554432 ∧
    (match modelCongestion .ieee Sample.dev 0 128 thirds [0, 1, 2] with
      | .ok (_, g) => g.niu[0]?
      | _ => none) = some 1 := by decide +kernel

/-- C28, sources, for arithmetic with rounding: the load exceeds `R` by at most one part in 128 and a 2^23-th
of the offered load. -/
theorem C28_sources_rounded (fp : FP) (dev : Device) (hd : DeviceOk dev) (hc : Capacities dev) (sot curr : Nat)
    (hlt : sot < curr) (hcurr : curr < 4294967296) (ts ts' : List TState) (live : List Nat) (g : Grids)
    (hs : Sane curr ts live) (hf : ∀ i ∈ live, ∀ t, ts[i]? = some t → fp.f32.Rep t.bw ∧ RectsOk t.params)
    (h : modelCongestion fp dev sot curr ts live = .ok (ts', g)) (noc : Noc) (c : Coord)
    (hu : uses (leaves dev noc c) ts live ≤ 65536) (R : ℚ)
    (hR : 0 ≤ R) (hrate : ∀ i ∈ live, ∀ t, ts[i]? = some t → t.params.noc = noc → t.params.src = c →
      t.params.injectionRate ≤ R) :
    srcLoad noc c sot curr ts' live ≤
      (R + offered (leaves dev noc c) sot curr ts live / 8388608) * (1 + 1 / 128) := by
  have hoff : 0 ≤ offered (leaves dev noc c) sot curr ts live :=
    offered_nonneg fun i hi t ht => mul_nonneg (share_nonneg hlt.le (hs.2 i hi t ht).1) (hs.2 i hi t ht).2.1
  obtain ⟨p1, _, _⟩ := modelCongestion_parts hs.1 h
  have hlen : ∀ k, dev.niuAt c (srcNiu noc) = .ok k →
      (contrib (niuC fp dev sot curr k.toNat) ts live).length ≤ uses (leaves dev noc c) ts live := by
    intro k hk
    refine le_of_eq (contrib_uses live fun i hi => ?_)
    obtain ⟨t, ht, ⟨L, hL, _⟩, _⟩ := p1 i hi
    refine ⟨t, ht, ?_⟩
    unfold niuC
    obtain ⟨o, e⟩ := getNIUID_ok hd.ids hk
    rw [hL, List.length_replicate, Int.toNat_of_nonneg (by omega)]
    exact loads_count_src hd.ids hL hk
  rcases src_bound (acc_round fp dev _) hc hlt hcurr hs (fun i hi t ht => (hf i hi t ht).1) h noc c R hR hrate
    hlen with h1 | ⟨X, k, hk, hX, h0, h1⟩
  · refine le_trans h1 ?_; positivity
  · refine le_trans h1 (le_trans (round_bound hR h0 hu) ?_)
    obtain ⟨X', hX', hc'⟩ := (C66_demands_rounded fp dev hd sot curr hlt hcurr ts ts' live g hs.1
      (fun i hi t ht => ⟨(hs.2 i hi t ht).1, (hs.2 i hi t ht).2.1, (hf i hi t ht).2⟩) h).2.2.1 noc c k hk hu
    rw [hX] at hX'
    obtain rfl := Option.some.inj hX'
    have := (abs_le.mp hc').2
    linarith

/-- C28, sinks, for arithmetic with rounding, partial: as `C28_sinks_partial`, up to one part in 128 and a
2^23-th of the load offered to the core.  Missing: multicast transfers, see `C28_violated`. -/
theorem C28_sinks_rounded_partial (fp : FP) (dev : Device) (hd : DeviceOk dev) (hc : Capacities dev)
    (sot curr : Nat) (hlt : sot < curr) (hcurr : curr < 4294967296) (ts ts' : List TState) (live : List Nat)
    (g : Grids) (hs : Sane curr ts live)
    (hf : ∀ i ∈ live, ∀ t, ts[i]? = some t → fp.f32.Rep t.bw ∧ RectsOk t.params)
    (h : modelCongestion fp dev sot curr ts live = .ok (ts', g)) (noc : Noc) (c : Coord)
    (hu : uses (reaches dev noc c) ts live ≤ 65536) (R : ℚ)
    (hR : dev.getSinkAbsorptionRate c = .ok R) :
    unicastSinkLoad noc c sot curr ts' live ≤
      (R + offered (reaches dev noc c) sot curr ts live / 8388608) * (1 + 1 / 128) := by
  have hoff : 0 ≤ offered (reaches dev noc c) sot curr ts live :=
    offered_nonneg fun i hi t ht => mul_nonneg (share_nonneg hlt.le (hs.2 i hi t ht).1) (hs.2 i hi t ht).2.1
  have hR0 := absRate_nonneg hc hR
  obtain ⟨p1, _, _⟩ := modelCongestion_parts hs.1 h
  have hlen : ∀ k, dev.niuAt c (sinkNiu noc) = .ok k →
      (contrib (niuC fp dev sot curr k.toNat) ts live).length ≤ uses (reaches dev noc c) ts live := by
    intro k hk
    refine le_of_eq (contrib_uses live fun i hi => ?_)
    obtain ⟨t, ht, ⟨L, hL, _⟩, _⟩ := p1 i hi
    refine ⟨t, ht, ?_⟩
    unfold niuC
    obtain ⟨o, e⟩ := getNIUID_ok hd.ids hk
    rw [hL, List.length_replicate, Int.toNat_of_nonneg (by omega)]
    exact loads_count_sink hd.ids (hf i hi t ht).2 hL hk
  rcases sink_bound (acc_round fp dev _) hc hlt hcurr hs (fun i hi t ht => (hf i hi t ht).1) h noc c R hR
    hlen with h1 | ⟨X, k, hk, hX, h0, h1⟩
  · refine le_trans h1 ?_; positivity
  · refine le_trans h1 (le_trans (round_bound hR0 h0 hu) ?_)
    obtain ⟨X', hX', hc'⟩ := (C66_demands_rounded fp dev hd sot curr hlt hcurr ts ts' live g hs.1
      (fun i hi t ht => ⟨(hs.2 i hi t ht).1, (hs.2 i hi t ht).2.1, (hf i hi t ht).2⟩) h).2.2.2 noc c k hk hu
    rw [hX] at hX'
    obtain rfl := Option.some.inj hX'
    have := (abs_le.mp hc').2
    linarith

/-! ### C29: order -/

/-- C29.  In exact arithmetic the order of the active transfers does not matter. -/
theorem C29_order (dev : Device) (en : Bool) (sot curr : Nat) (g : Grids) (ts ts' : List TState)
    (g' : Grids) (live live' : List Nat) (hn : live.Nodup) (hp : live.Perm live')
    (h : computeRates .exact dev en sot curr g ts live = .ok (ts', g')) :
    computeRates .exact dev en sot curr g ts live' = .ok (ts', g') := by
  unfold computeRates at h ⊢
  obtain ⟨ts1, h1, h⟩ := Out.bind_eq_ok.mp h
  rw [updateTransferBandwidth_perm hn hp h1, Out.bind_ok]
  cases en with
  | false => exact h
  | true => exact modelCongestion_perm hn hp h

example : [0, 1].Perm [1, 0] ∧ ratesOf .exact Sample.dev true crowd [1, 0] =
    ratesOf .exact Sample.dev true crowd [0, 1] := by
  refine ⟨by decide, by decide +kernel⟩

/-- Without the congestion model, the order does not matter for any rounding. -/
theorem C29_order_uncongested (fp : FP) (dev : Device) (sot curr : Nat) (g : Grids) (ts ts' : List TState)
    (g' : Grids) (live live' : List Nat) (hn : live.Nodup) (hp : live.Perm live')
    (h : computeRates fp dev false sot curr g ts live = .ok (ts', g')) :
    computeRates fp dev false sot curr g ts live' = .ok (ts', g') := by
  unfold computeRates at h ⊢
  obtain ⟨ts1, h1, h⟩ := Out.bind_eq_ok.mp h
  rw [updateTransferBandwidth_perm hn hp h1, Out.bind_ok]
  exact h

/-- A two-by-two device with the constants of Wormhole in IEEE arithmetic, and three transfers of
rates 1, 2^-24 and 2^-24 over one link. -/
def devI : Device := { wormhole .ieee false 1 with rows := 2, cols := 2 }
def tiny : List TState :=
  [big ⟨0, 0, 1⟩ (.unicast ⟨0, 1, 1⟩) 1 .noc0, big ⟨0, 0, 1⟩ (.unicast ⟨0, 1, 1⟩) (1 / 16777216) .noc0,
   big ⟨0, 0, 1⟩ (.unicast ⟨0, 1, 1⟩) (1 / 16777216) .noc0].map (fresh devI)

/-- C29 is violated with IEEE arithmetic: `float` addition is not associative, so the demand of the
link and the bandwidth of the first transfer depend on the order of the active transfers. -/
theorem C29_violated_float :
    (gridsOf (ratesOf .ieee devI true tiny [0, 1, 2])).link[5]? = some 1 ∧
    (gridsOf (ratesOf .ieee devI true tiny [2, 1, 0])).link[5]? = some (8388609 / 8388608) ∧
    (bws (ratesOf .ieee devI true tiny [0, 1, 2]))[0]? = some 1 ∧
    (bws (ratesOf .ieee devI true tiny [2, 1, 0]))[0]? = some (8388607 / 8388608) := by decide +kernel

/-! ### C30 and C62: transfers on disjoint resources -/

/-- C30.  An additional active transfer that shares no link, no source and no sink with transfer `i`
does not change the bandwidth of `i`, with any rounding. -/
theorem C30_disjoint (fp : FP) (dev : Device) (hd : DeviceOk dev) (sot curr : Nat)
    (ts ts1 ts2 : List TState) (a b : List Nat) (i j : Nat) (g1 g2 : Grids) (t u : TState)
    (hn : (a ++ j :: b).Nodup) (hi : i ∈ a ++ b) (ht : ts[i]? = some t) (hu : ts[j]? = some u)
    (hrt : RectsOk t.params) (hru : RectsOk u.params) (hapart : Apart dev t u)
    (h1 : modelCongestion fp dev sot curr ts (a ++ b) = .ok (ts1, g1))
    (h2 : modelCongestion fp dev sot curr ts (a ++ j :: b) = .ok (ts2, g2)) :
    ts1[i]? = ts2[i]? :=
  disjoint_bw hn hi ht hu hapart.links
    (fun _ _ hL hM => loads_disjoint hd.ids hrt hru hapart.sources hapart.sinks hL hM) h1 h2

/-- C62.  Transfers on different NoCs do not interact: an additional active transfer on the other NoC
does not change the bandwidth of transfer `i`, with any rounding. -/
theorem C62_nocs_independent (fp : FP) (dev : Device) (hd : DeviceOk dev) (sot curr : Nat)
    (ts ts1 ts2 : List TState) (a b : List Nat) (i j : Nat) (g1 g2 : Grids) (t u : TState)
    (hn : (a ++ j :: b).Nodup) (hi : i ∈ a ++ b) (ht : ts[i]? = some t) (hu : ts[j]? = some u)
    (hrt : RectsOk t.params) (hru : RectsOk u.params)
    (ord : List Int → List Int) (hord : ∀ l, (ord l).Perm l)
    (hroute : dev.route ord t.params.noc t.params.src t.params.dst = .ok t.route)
    (hroute' : dev.route ord u.params.noc u.params.src u.params.dst = .ok u.route)
    (hnoc : t.params.noc ≠ u.params.noc)
    (h1 : modelCongestion fp dev sot curr ts (a ++ b) = .ok (ts1, g1))
    (h2 : modelCongestion fp dev sot curr ts (a ++ j :: b) = .ok (ts2, g2)) :
    ts1[i]? = ts2[i]? := by
  refine C30_disjoint fp dev hd sot curr ts ts1 ts2 a b i j g1 g2 t u hn hi ht hu hrt hru ?_ h1 h2
  refine ⟨fun l hl hl' => ?_, fun h => absurd h hnoc, fun h => absurd h hnoc⟩
  exact ofNoc_ne hnoc (route_noc hd hord hroute l hl) (route_noc hd hord hroute' l hl')

/-- A third transfer on NoC 1 beside the two that share a link. -/
def crowd3 : List TState := crowd ++ [fresh Sample.dev (big ⟨0, 0, 0⟩ (.unicast ⟨0, 1, 1⟩) 28 .noc1)]

example : bws (ratesOf .exact Sample.dev true crowd3 [0, 1, 2]) = [562 / 35, 843 / 70, 28] := by
  decide +kernel

/-! ### C31: no congestion model -/

/-- C31.  With the congestion model off, every active transfer gets the smaller of its injection rate
and the table bandwidth for its packets, nothing else of the state changes and the demand grids keep
their values. -/
theorem C31_own_bandwidth (fp : FP) (dev : Device) (sot curr : Nat) (g g' : Grids)
    (ts ts' : List TState) (live : List Nat) (hn : live.Nodup)
    (h : computeRates fp dev false sot curr g ts live = .ok (ts', g')) :
    g' = g ∧ ts'.length = ts.length ∧ (∀ i ∉ live, ts'[i]? = ts[i]?) ∧
    ∀ i ∈ live, ∃ t b, ts[i]? = some t ∧
      interpolateBW fp dev.tbt dev.maxBw t.params.packetSize t.params.numPackets = .ok b ∧
      ts'[i]? = some { t with bw := min t.params.injectionRate b } := by
  obtain ⟨h1, h2, h3, h4⟩ := computeRates_bw hn h
  refine ⟨h3 rfl, h1, h2, fun i hi => ?_⟩
  obtain ⟨t, b, d, a1, a2, a3, a4⟩ := h4 i hi
  rw [a4 rfl] at a3
  unfold tableBw at a2
  obtain ⟨x, x1, x2⟩ := Out.bind_eq_ok.mp a2
  rw [← Out.ok.inj x2] at a3
  exact ⟨t, x, a1, x1, a3⟩

/-- C31, runs: with the congestion model off, the demand grids are zero throughout the run. -/
theorem C31_grids_zero (fp : FP) (dev : Device) (cpt : Nat) (golden : GoldenMap) (ho : HashOrder)
    (wl : Workload) (s0 : Sim) (h0 : initSim fp dev ho wl = .ok s0) (c : Nat) (s : Sim)
    (hs : Reach (simConfig fp dev cpt golden false) s0 c s) :
    (∀ x ∈ s.grids.link, x = 0) ∧ (∀ x ∈ s.grids.niu, x = 0) ∧ ∀ x ∈ s.grids.mcast, x = 0 := by
  have key : s.grids = initGrids dev := by
    have hinv := init_inv h0
    induction hs with
    | start => exact (initSim_ok h0).1.grids
    | @step c sa sb hr hc h ih =>
      obtain ⟨F⟩ := step_facts (computeRates_ok fp dev false) (Nat.le_add_right c _)
        (Spec.Reach.inv (computeRates_ok fp dev false) hinv hr) h
      have hrates := F.P.rates
      have hnd : F.P.s1.live.Nodup := (List.nodup_append.mp F.inv1.nodup).2.1
      have hg := (computeRates_bw (en := false) hnd hrates).2.2.1 rfl
      rw [F.P.res]
      show F.P.g2 = _
      rw [hg, F.grids1, ih]
  rw [key]
  refine ⟨?_, ?_, ?_⟩ <;> intro x hx <;> exact (List.mem_replicate.mp hx).2

example : (gridsOf (ratesOf .exact Sample.dev false crowd [0, 1])).link[5]? = some 0 ∧
    (gridsOf (ratesOf .exact Sample.dev true crowd [0, 1])).link[5]? = some 35 := by decide +kernel

/-! ### C32: interpolation -/

/-- C32.  For packets of at least one byte and at least one packet the interpolated bandwidth is
defined and positive; it is the peak of the table for a single packet and for packets above the largest
size of the table; and it exceeds the peak by at most one part in 2^21, with any rounding. -/
theorem C32_total (fp : FP) (dev : Device) (hT : TableOk fp dev.tbt) (size : Nat) (bw : ℚ)
    (hp : Peak dev.tbt size bw) (ps n : Nat) (hps : 0 < ps) (hn : 0 < n) :
    ∃ b, interpolateBW fp dev.tbt dev.maxBw ps n = .ok b ∧ 0 < b ∧ b ≤ bw * (1 + 1 / 2097152) ∧
      (n = 1 ∨ size < ps → b = bw) := by
  obtain ⟨h1, h2, h3, h4, h5, h6⟩ := interpolateBW_eq hT hp hps hn
  refine ⟨_, h6, ?_⟩
  split
  · rename_i hle
    refine ⟨blended_pos fp hn h3 h4, blended_le fp hn h3.le h4.le h5, ?_⟩
    rintro (rfl | h)
    · exact blended_one fp h2
    · omega
  · exact ⟨h3, by nlinarith, fun _ => rfl⟩

/-- C32 in exact arithmetic: the bandwidth never exceeds the peak of the table and, for a fixed number
of packets, never decreases when packets grow. -/
theorem C32_bounded_monotone (dev : Device) (hT : TableOk .exact dev.tbt) (size : Nat) (bw : ℚ)
    (hp : Peak dev.tbt size bw) (ps ps' n : Nat) (hps : 0 < ps) (hle : ps ≤ ps') (hn : 0 < n) :
    ∃ b b', interpolateBW .exact dev.tbt dev.maxBw ps n = .ok b ∧
      interpolateBW .exact dev.tbt dev.maxBw ps' n = .ok b' ∧ b ≤ b' ∧ b' ≤ bw := by
  obtain ⟨h1, h2, h3, h4, h5, h6⟩ := interpolateBW_eq hT hp hps hn
  obtain ⟨k1, k2, k3, k4, k5, k6⟩ := interpolateBW_eq hT hp (lt_of_lt_of_le hps hle) hn
  have hr := hT.rising
  obtain ⟨b, l, e⟩ := hT.first
  have hlast : ((0, 0) :: b :: l : List (Nat × ℚ)).getLast (by simp) = (size, bw) := by
    have hp' : dev.tbt.getLast? = some (size, bw) := hp
    rw [e, List.getLast?_eq_getLast_of_ne_nil (by simp)] at hp'
    exact Option.some.inj hp'
  have hm : steadyAt .exact ps dev.tbt ≤ steadyAt .exact ps' dev.tbt := by
    rw [e] at hr ⊢; exact steadyAt_mono hle _ _ hr (tight_exact _)
  have hb : ∀ q, steadyAt .exact q dev.tbt ≤ bw := by
    intro q
    rw [e] at hr ⊢
    have := steadyAt_le_tight (ps := q) _ _ hr (tight_exact _)
    rw [hlast] at this
    exact this
  have hbl : ∀ q, blended .exact bw (steadyAt .exact q dev.tbt) n ≤ bw := by
    intro q
    have := blended_mono .exact bw hn (hb q)
    rwa [blended_exact] at this
  refine ⟨_, _, h6, k6, ?_, ?_⟩
  · by_cases c1 : ps' ≤ size
    · rw [if_pos c1, if_pos (le_trans hle c1)]
      exact blended_mono .exact bw hn hm
    · rw [if_neg c1]
      split
      · exact hbl _
      · exact le_rfl
  · split
    · exact hbl _
    · exact le_rfl

/-- C32 with rounding: within the range of the table the bandwidth never decreases when packets grow,
for any rounding, provided that no difference of neighbouring entries rounds up (`Tight`). -/
theorem C32_monotone_rounded (fp : FP) (dev : Device) (hT : TableOk fp dev.tbt) (hti : Tight fp dev.tbt)
    (size : Nat) (bw : ℚ) (hp : Peak dev.tbt size bw) (ps ps' n : Nat) (hps : 0 < ps) (hle : ps ≤ ps')
    (hsz : ps' ≤ size) (hn : 0 < n) :
    ∃ b b', interpolateBW fp dev.tbt dev.maxBw ps n = .ok b ∧
      interpolateBW fp dev.tbt dev.maxBw ps' n = .ok b' ∧ b ≤ b' := by
  obtain ⟨h1, h2, h3, h4, h5, h6⟩ := interpolateBW_eq hT hp hps hn
  obtain ⟨k1, k2, k3, k4, k5, k6⟩ := interpolateBW_eq hT hp (lt_of_lt_of_le hps hle) hn
  have hr := hT.rising
  obtain ⟨b, l, e⟩ := hT.first
  refine ⟨_, _, h6, k6, ?_⟩
  rw [if_pos hsz, if_pos (le_trans hle hsz)]
  refine blended_mono fp bw hn ?_
  rw [e] at hr hti ⊢
  exact steadyAt_mono hle _ _ hr hti

/-- The tables of the created devices are tight in IEEE arithmetic. -/
theorem C32_tight (name : String) (dev : Device) (h : createDeviceModel .ieee name = .ok dev) :
    Tight .ieee dev.tbt := by
  have w : ∀ m k, Tight .ieee (wormhole .ieee m k).tbt := by
    intro m k
    show Tight .ieee (wormhole .ieee false 1).tbt
    unfold wormhole
    simp only [Tight, and_true]
    decide +kernel
  have b : ∀ p, Tight .ieee (blackhole .ieee p).tbt := by
    intro p
    show Tight .ieee (blackhole .ieee false).tbt
    unfold blackhole
    simp only [Tight, and_true]
    decide +kernel
  unfold createDeviceModel at h
  split_ifs at h <;> cases h <;> first | exact w _ _ | exact b _

/-- C32 for the created devices in IEEE arithmetic: within the range of the table the bandwidth never
decreases when packets grow. -/
theorem C32_devices_monotone (name : String) (dev : Device) (h : createDeviceModel .ieee name = .ok dev)
    (size : Nat) (bw : ℚ) (hp : Peak dev.tbt size bw) (ps ps' n : Nat) (hps : 0 < ps) (hle : ps ≤ ps')
    (hsz : ps' ≤ size) (hn : 0 < n) :
    ∃ b b', interpolateBW .ieee dev.tbt dev.maxBw ps n = .ok b ∧
      interpolateBW .ieee dev.tbt dev.maxBw ps' n = .ok b' ∧ b ≤ b' :=
  C32_monotone_rounded .ieee dev (C26_devices .ieee name dev h).2 (C32_tight name dev h) size bw hp ps ps' n
    hps hle hsz hn

/-- The peaks of the created devices have even significands. -/
theorem peak_even (name : String) (dev : Device) (h : createDeviceModel .ieee name = .ok dev) (size : Nat) (bw : ℚ)
    (hp : Peak dev.tbt size bw) : ∃ m j : ℤ, bw = m * (2 : ℚ) ^ j ∧ 13981014 < m ∧ m < 2 ^ 24 ∧ m % 2 = 0 := by
  have w : ∀ m k, Peak (wormhole .ieee m k).tbt size bw → bw = 30 := by
    intro m k hp
    have hp' : some ((8192, 30) : Nat × ℚ) = some (size, bw) := hp
    exact (congrArg Prod.snd (Option.some.inj hp')).symm
  have b : ∀ p, Peak (blackhole .ieee p).tbt size bw → bw = FP.ieee.f32.fl (609 / 10) := by
    intro p hp
    have hp' : some ((16384, FP.ieee.f32.fl (609 / 10)) : Nat × ℚ) = some (size, bw) := hp
    exact (congrArg Prod.snd (Option.some.inj hp')).symm
  have e1 : (∃ m j : ℤ, (30 : ℚ) = m * (2 : ℚ) ^ j ∧ 13981014 < m ∧ m < 2 ^ 24 ∧ m % 2 = 0) :=
    ⟨15728640, -19, by norm_num, by norm_num, by norm_num, by norm_num⟩
  have e2 : (∃ m j : ℤ, FP.ieee.f32.fl (609 / 10) = m * (2 : ℚ) ^ j ∧ 13981014 < m ∧ m < 2 ^ 24 ∧ m % 2 = 0) := by
    refine ⟨15964570, -18, ?_, by norm_num, by norm_num, by norm_num⟩
    show roundP 24 (609 / 10) = _
    rw [roundP_eval 5 (by norm_num) (by norm_num) (by norm_num)]
    have : rne (609 / 10 / (2 : ℚ) ^ ((5 : ℤ) + 1 - (24 : ℕ))) = 15964570 := by norm_num [rne]
    rw [this]
    norm_num
  unfold createDeviceModel at h
  split_ifs at h <;> cases h <;> first | (rw [w _ _ hp]; exact e1) | (rw [b _ hp]; exact e2)

/-- C32 for the created devices in IEEE arithmetic, with nothing lost to rounding: for packets of at least one byte
and at least one packet the bandwidth is defined, positive and at most the peak of the table, it never decreases when
packets grow, and a single packet gets the peak. -/
theorem C32_devices (name : String) (dev : Device) (h : createDeviceModel .ieee name = .ok dev)
    (size : Nat) (bw : ℚ) (hp : Peak dev.tbt size bw) (ps ps' n : Nat) (hps : 0 < ps) (hle : ps ≤ ps') (hn : 0 < n) :
    ∃ b b', interpolateBW .ieee dev.tbt dev.maxBw ps n = .ok b ∧
      interpolateBW .ieee dev.tbt dev.maxBw ps' n = .ok b' ∧ 0 < b ∧ b ≤ b' ∧ b' ≤ bw ∧
      (n = 1 ∨ size < ps → b = bw) := by
  have hT := (C26_devices .ieee name dev h).2
  have hti := C32_tight name dev h
  obtain ⟨m, j, hm, m1, m2, m3⟩ := peak_even name dev h size bw hp
  obtain ⟨h1, h2, h3, h4, h5, h6⟩ := interpolateBW_eq hT hp hps hn
  obtain ⟨k1, k2, k3, k4, k5, k6⟩ := interpolateBW_eq hT hp (lt_of_lt_of_le hps hle) hn
  obtain ⟨b0, g1, g2, _, g4⟩ := C32_total .ieee dev hT size bw hp ps n hps hn
  have hr := hT.rising
  obtain ⟨b, l, e⟩ := hT.first
  have hlast : ((0, 0) :: b :: l : List (Nat × ℚ)).getLast (by simp) = (size, bw) := by
    have hp' : dev.tbt.getLast? = some (size, bw) := hp
    rw [e, List.getLast?_eq_getLast_of_ne_nil (by simp)] at hp'
    exact Option.some.inj hp'
  have hmono : steadyAt .ieee ps dev.tbt ≤ steadyAt .ieee ps' dev.tbt := by
    rw [e] at hr hti ⊢; exact steadyAt_mono hle _ _ hr hti
  have hbl : ∀ q, blended .ieee bw (steadyAt .ieee q dev.tbt) n ≤ bw := by
    intro q
    have hq : steadyAt .ieee q dev.tbt ≤ bw := by
      rw [e] at hr hti ⊢
      have := steadyAt_le_tight (ps := q) _ _ hr hti
      rw [hlast] at this
      exact this
    have := blended_mono .ieee bw hn hq
    rwa [blended_self hm m1 m2 m3 hn] at this
  have e0 : b0 = if ps ≤ size then blended .ieee bw (steadyAt .ieee ps dev.tbt) n else bw := Out.ok.inj (g1.symm.trans h6)
  refine ⟨b0, _, g1, k6, g2, ?_, ?_, g4⟩
  · rw [e0]
    by_cases c1 : ps' ≤ size
    · rw [if_pos c1, if_pos (le_trans hle c1)]
      exact blended_mono .ieee bw hn hmono
    · rw [if_neg c1]
      split
      · exact hbl _
      · exact le_rfl
  · split
    · exact hbl _
    · exact le_rfl

-- packets of a size within the table of Wormhole
example : ∃ dev, createDeviceModel .ieee "wormhole_b0" = .ok dev ∧ Peak dev.tbt 8192 30 :=
  ⟨_, rfl, rfl⟩

example : interpolateBW .exact Sample.dev.tbt Sample.dev.maxBw 192 4 = .ok (267 / 20) ∧
    interpolateBW .exact Sample.dev.tbt Sample.dev.maxBw 192 1 = .ok 30 ∧
    interpolateBW .exact Sample.dev.tbt Sample.dev.maxBw 0 1 = .exc .undef ∧
    Peak Sample.dev.tbt 8192 30 := by
  refine ⟨by decide +kernel, by decide +kernel, by decide +kernel, by unfold Peak; decide +kernel⟩

end NPE.Props
