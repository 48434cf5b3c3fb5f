import Mathlib.Algebra.BigOperators.Ring.List
import Verif.Proofs.BottleneckRounded

/-
Property theorems about the cause and the size of slow-downs: C138, C139.
-/

namespace NPE.Props
open NPE.Spec NPE.Spec.Fluid

/-! ### C138: only an overloaded point slows a transfer, by the factor of the worst one -/

/-- C138, in exact arithmetic: if no link of its route, nor its source, nor its sink is asked for more than its
capacity, a transfer keeps its bandwidth. -/
theorem C138_needless (dev : Device) (hd : DeviceOk dev) (hc : Capacities dev) (sot curr : Nat) (hle : sot ≤ curr)
    (hcurr : curr < 4294967296) (ts ts' : List TState) (live : List Nat) (g : Grids) (hs : Sane curr ts live)
    (hr : ∀ i ∈ live, ∀ t, ts[i]? = some t → RectsOk t.params)
    (h : modelCongestion .exact dev sot curr ts live = .ok (ts', g)) (i : Nat) (hi : i ∈ live) (t t' : TState)
    (ht : ts[i]? = some t) (ht' : ts'[i]? = some t')
    (hfree : ∀ cap w, Passes dev t cap w → offered w sot curr ts live ≤ cap) : t'.bw = t.bw := by
  obtain ⟨q, h1, h2, h3, h4⟩ := modelCongestion_least hd hc.1 hle hcurr hs hr h hi ht ht'
  have hq : q = 1 := by
    rcases h4 with h4 | ⟨cap, w, hp, h4⟩
    · exact h4
    · refine le_antisymm h2 ?_
      have h0 : 0 ≤ offered w sot curr ts live :=
        offered_nonneg fun j hj u hu => mul_nonneg (share_nonneg hle (hs.2 j hj u hu).1) (hs.2 j hj u hu).2.1
      rw [h4]
      unfold served
      split
      · exact le_rfl
      · next hne => exact (one_le_div (lt_of_le_of_ne h0 (Ne.symm hne))).mpr (hfree cap w hp)
  rw [h1, hq, mul_one]

/-- C138, in exact arithmetic: otherwise its bandwidth is reduced to the part that the worst of these points can serve:
its capacity divided by its load. -/
theorem C138_worst (dev : Device) (hd : DeviceOk dev) (hc : Capacities dev) (sot curr : Nat) (hle : sot ≤ curr)
    (hcurr : curr < 4294967296) (ts ts' : List TState) (live : List Nat) (g : Grids) (hs : Sane curr ts live)
    (hr : ∀ i ∈ live, ∀ t, ts[i]? = some t → RectsOk t.params)
    (h : modelCongestion .exact dev sot curr ts live = .ok (ts', g)) (i : Nat) (hi : i ∈ live) (t t' : TState)
    (ht : ts[i]? = some t) (ht' : ts'[i]? = some t')
    (hover : ∃ cap w, Passes dev t cap w ∧ cap < offered w sot curr ts live) :
    ∃ cap w, Passes dev t cap w ∧ cap < offered w sot curr ts live ∧
      t'.bw = t.bw * (cap / offered w sot curr ts live) ∧
      ∀ cap' w', Passes dev t cap' w' → cap' < offered w' sot curr ts live →
        cap / offered w sot curr ts live ≤ cap' / offered w' sot curr ts live := by
  obtain ⟨q, h1, h2, h3, h4⟩ := modelCongestion_least hd hc.1 hle hcurr hs hr h hi ht ht'
  have h0 : ∀ w, 0 ≤ offered w sot curr ts live := fun w =>
    offered_nonneg fun j hj u hu => mul_nonneg (share_nonneg hle (hs.2 j hj u hu).1) (hs.2 j hj u hu).2.1
  have hcap : ∀ cap w, Passes dev t cap w → 0 ≤ cap := by
    intro cap w hp
    cases hp with
    | link l _ => exact hc.1
    | source => exact (hs.2 i hi t ht).2.2
    | sink d a _ ha =>
      unfold Device.getSinkAbsorptionRate at ha
      obtain ⟨ct, _, ha⟩ := Out.bind_eq_ok.mp ha
      rw [← Out.ok.inj ha]
      exact hc.2.2 _
  have hlt : ∀ cap w, Passes dev t cap w → cap < offered w sot curr ts live →
      served cap (offered w sot curr ts live) = cap / offered w sot curr ts live ∧
      cap / offered w sot curr ts live < 1 := by
    intro cap w hp hl
    have hpos : 0 < offered w sot curr ts live := lt_of_le_of_lt (hcap cap w hp) hl
    refine ⟨?_, (div_lt_one hpos).mpr hl⟩
    unfold served
    rw [if_neg hpos.ne']
  obtain ⟨cap0, w0, hp0, hl0⟩ := hover
  have hq1 : q < 1 := by
    have := h3 cap0 w0 hp0
    rw [(hlt cap0 w0 hp0 hl0).1] at this
    exact lt_of_le_of_lt this (hlt cap0 w0 hp0 hl0).2
  rcases h4 with h4 | ⟨cap, w, hp, h4⟩
  · exact absurd h4 hq1.ne
  · have hne : offered w sot curr ts live ≠ 0 := by
      intro hz
      unfold served at h4
      rw [if_pos hz] at h4
      exact hq1.ne h4
    have hpos : 0 < offered w sot curr ts live := lt_of_le_of_ne (h0 w) (Ne.symm hne)
    have h5 : q = cap / offered w sot curr ts live := by
      rw [h4]; unfold served; rw [if_neg hne]
    refine ⟨cap, w, hp, (div_lt_one hpos).mp (by rw [← h5]; exact hq1), by rw [h1, h5], ?_⟩
    intro cap' w' hp' hl'
    rw [← h5, ← (hlt cap' w' hp' hl').1]
    exact h3 cap' w' hp'

/-- C138, in exact arithmetic: transfers that pass the same points are slowed by the same factor. -/
theorem C138_equal (dev : Device) (hd : DeviceOk dev) (hc : Capacities dev) (sot curr : Nat) (hle : sot ≤ curr)
    (hcurr : curr < 4294967296) (ts ts' : List TState) (live : List Nat) (g : Grids) (hs : Sane curr ts live)
    (hr : ∀ i ∈ live, ∀ t, ts[i]? = some t → RectsOk t.params)
    (h : modelCongestion .exact dev sot curr ts live = .ok (ts', g)) (i j : Nat) (hi : i ∈ live) (hj : j ∈ live)
    (t t' u u' : TState) (ht : ts[i]? = some t) (ht' : ts'[i]? = some t') (hu : ts[j]? = some u)
    (hu' : ts'[j]? = some u') (hsame : ∀ cap w, Passes dev t cap w ↔ Passes dev u cap w) :
    ∃ q : ℚ, t'.bw = t.bw * q ∧ u'.bw = u.bw * q := by
  obtain ⟨q, h1, h2, h3, h4⟩ := modelCongestion_least hd hc.1 hle hcurr hs hr h hi ht ht'
  obtain ⟨r, k1, k2, k3, k4⟩ := modelCongestion_least hd hc.1 hle hcurr hs hr h hj hu hu'
  have e : q = r := by
    refine le_antisymm ?_ ?_
    · rcases k4 with k4 | ⟨cap, w, hp, k4⟩
      · rw [k4]; exact h2
      · rw [k4]; exact h3 cap w ((hsame cap w).mpr hp)
    · rcases h4 with h4 | ⟨cap, w, hp, h4⟩
      · rw [h4]; exact k2
      · rw [h4]; exact k3 cap w ((hsame cap w).mp hp)
  exact ⟨q, h1, by rw [e]; exact k1⟩

/-- C138 with rounding: if every point that the transfer passes has a part in 128 of its load to spare and is used by
no more than 65536 demands, a transfer keeps its bandwidth exactly. -/
theorem C138_needless_rounded (fp : FP) (dev : Device) (hd : DeviceOk dev) (sot curr : Nat) (hlt : sot < curr)
    (hcurr : curr < 4294967296) (ts ts' : List TState) (live : List Nat) (g : Grids) (hs : Sane curr ts live)
    (hr : ∀ i ∈ live, ∀ t, ts[i]? = some t → RectsOk t.params)
    (h : modelCongestion fp dev sot curr ts live = .ok (ts', g)) (i : Nat) (hi : i ∈ live) (t t' : TState)
    (ht : ts[i]? = some t) (ht' : ts'[i]? = some t')
    (hfree : ∀ cap w, Passes dev t cap w → uses w ts live ≤ 65536 ∧
      offered w sot curr ts live * (1 + 1 / 128) ≤ cap) : t'.bw = t.bw :=
  keeps_rounded hd hlt hcurr hs hr h hi ht ht' hfree

/-- C138 with rounding, if some point that the transfer passes is overloaded and no more than 65536 demands are added at
any of them: up to a part in 100, and a 2^21-th of the bandwidth asked for, the bandwidth is reduced to the part that
the worst of these points can serve. -/
theorem C138_worst_rounded (fp : FP) (dev : Device) (hd : DeviceOk dev) (hc : Capacities dev) (sot curr : Nat)
    (hlt : sot < curr) (hcurr : curr < 4294967296) (ts ts' : List TState) (live : List Nat) (g : Grids)
    (hs : Sane curr ts live) (hr : ∀ i ∈ live, ∀ t, ts[i]? = some t → RectsOk t.params)
    (h : modelCongestion fp dev sot curr ts live = .ok (ts', g)) (i : Nat) (hi : i ∈ live) (t t' : TState)
    (ht : ts[i]? = some t) (ht' : ts'[i]? = some t')
    (huse : ∀ cap w, Passes dev t cap w → uses w ts live ≤ 65536)
    (hover : ∃ cap w, Passes dev t cap w ∧ cap < offered w sot curr ts live) :
    ∃ cap w, Passes dev t cap w ∧ cap < offered w sot curr ts live ∧
      |t'.bw - t.bw * (cap / offered w sot curr ts live)| ≤
        t.bw * (cap / offered w sot curr ts live / 100 + 1 / 2097152) ∧
      ∀ cap' w', Passes dev t cap' w' → cap' < offered w' sot curr ts live →
        cap / offered w sot curr ts live ≤ cap' / offered w' sot curr ts live := by
  obtain ⟨q, h1, _, _, h3, h4⟩ := modelCongestion_least_rounded hd hc hlt hcurr hs hr h hi ht ht' huse
  obtain ⟨cap, w, k1, k2, k3, k4⟩ := worst_of_least hc hlt.le hs hi ht h3 h4 hover
  rw [k3] at h1 k4
  exact ⟨cap, w, k1, k2, h1, k4⟩

/-- C138 with rounding: transfers that pass the same points are slowed by the same factor, up to a part in 100 and a
2^21-th of the bandwidths asked for. -/
theorem C138_equal_rounded (fp : FP) (dev : Device) (hd : DeviceOk dev) (hc : Capacities dev) (sot curr : Nat)
    (hlt : sot < curr) (hcurr : curr < 4294967296) (ts ts' : List TState) (live : List Nat) (g : Grids)
    (hs : Sane curr ts live) (hr : ∀ i ∈ live, ∀ t, ts[i]? = some t → RectsOk t.params)
    (h : modelCongestion fp dev sot curr ts live = .ok (ts', g)) (i j : Nat) (hi : i ∈ live) (hj : j ∈ live)
    (t t' u u' : TState) (ht : ts[i]? = some t) (ht' : ts'[i]? = some t') (hu : ts[j]? = some u)
    (hu' : ts'[j]? = some u') (huse : ∀ cap w, Passes dev t cap w → uses w ts live ≤ 65536)
    (hsame : ∀ cap w, Passes dev t cap w ↔ Passes dev u cap w) :
    ∃ q : ℚ, 0 ≤ q ∧ q ≤ 1 ∧ |t'.bw - t.bw * q| ≤ t.bw * (q / 100 + 1 / 2097152) ∧
      |u'.bw - u.bw * q| ≤ u.bw * (q / 100 + 1 / 2097152) := by
  obtain ⟨q, h1, h0, h2, h3, h4⟩ := modelCongestion_least_rounded hd hc hlt hcurr hs hr h hi ht ht' huse
  obtain ⟨r, k1, k0, k2, k3, k4⟩ := modelCongestion_least_rounded hd hc hlt hcurr hs hr h hj hu hu'
    fun cap w hp => huse cap w ((hsame cap w).mpr hp)
  have e : q = r := by
    refine le_antisymm ?_ ?_
    · rcases k4 with k4 | ⟨cap, w, hp, k4⟩
      · rw [k4]; exact h2
      · rw [k4]; exact h3 cap w ((hsame cap w).mpr hp)
    · rcases h4 with h4 | ⟨cap, w, hp, h4⟩
      · rw [h4]; exact k2
      · rw [h4]; exact k3 cap w ((hsame cap w).mp hp)
  subst e
  exact ⟨q, h0, h2, h1, k1⟩

/-- Four transfers: two leave the core (0,0), the second of them and two others go to the core (1,1). -/
def knot : List TState :=
  [big ⟨0, 0, 0⟩ (.unicast ⟨0, 0, 1⟩) 20 .noc0, big ⟨0, 0, 0⟩ (.unicast ⟨0, 1, 1⟩) 20 .noc0,
   big ⟨0, 1, 0⟩ (.unicast ⟨0, 1, 1⟩) 28 .noc0, big ⟨0, 0, 1⟩ (.unicast ⟨0, 1, 1⟩) 28 .noc0].map
    (fresh Sample.dev)

/-- The knot with the bandwidths before and after the congestion model. -/
def knotIn : List TState := statesOf (ratesOf .exact Sample.dev false knot [0, 1, 2, 3])
def knotOut : List TState := statesOf (ratesOf .exact Sample.dev true knot [0, 1, 2, 3])

/-- The first of them. -/
def knotFirst : TState := knotIn[0]'(by decide +kernel)

/-- The source (0,0) is asked for 40 bytes per cycle and gives 20 to each transfer, so it serves one half; the sink
(1,1) serves 281/760 of its load, and this is what the second transfer gets. -/
example : knotIn.map (fun t => t.bw) = [20, 20, 28, 28] ∧
    knotOut.map (fun t => t.bw) = [20 * (20 / 40), 20 * (281 / 760), 28 * (281 / 760), 28 * (281 / 760)] ∧
    offered (leaves Sample.dev .noc0 ⟨0, 0, 0⟩) 0 128 knotIn [0, 1, 2, 3] = 40 ∧
    offered (reaches Sample.dev .noc0 ⟨0, 1, 1⟩) 0 128 knotIn [0, 1, 2, 3] = 76 ∧
    Sample.dev.getSinkAbsorptionRate ⟨0, 1, 1⟩ = .ok (281 / 10) := by decide +kernel

/-- In IEEE arithmetic the last two get a little less than 28 · 281/760. -/
example : (bws (ratesOf .ieee Sample.dev true knot [0, 1, 2, 3])).drop 2 =
    [10855521 / 1048576, 10855521 / 1048576] ∧ (10855521 / 1048576 : ℚ) < 28 * (281 / 760) := by decide +kernel

/-- Alone, the first of them keeps its bandwidth, also in IEEE arithmetic: its link has 30, its source 20 and its sink
more than it asks for. -/
example : bws (ratesOf .exact Sample.dev true knot [0]) = [20, 0, 0, 0] ∧
    bws (ratesOf .ieee Sample.dev true knot [0]) = [20, 0, 0, 0] := by decide +kernel

/-! ### C139: no capacity is left unused -/

/-- C139 would say that a transfer that is slowed down passes some point whose capacity is used up.  It is violated:
the first transfer gets only 10 instead of 20 bytes per cycle, but afterwards every point that it passes has capacity
to spare.  (The source divides its capacity among all that ask, although one of them cannot use its part, since its
sink serves less.) -/
theorem C139_violated : ∃ g,
    modelCongestion .exact Sample.dev 0 128 knotIn [0, 1, 2, 3] = .ok (knotOut, g) ∧
    ∃ t t', knotIn[0]? = some t ∧ knotOut[0]? = some t' ∧ t'.bw = t.bw / 2 ∧ 0 < t.bw ∧
      ∀ cap w, Passes Sample.dev t cap w → offered w 0 128 knotOut [0, 1, 2, 3] < cap := by
  refine ⟨gridsOf (ratesOf .exact Sample.dev true knot [0, 1, 2, 3]), by decide +kernel, knotFirst,
    knotOut[0]'(by decide +kernel), by decide +kernel, by decide +kernel, by decide +kernel, by decide +kernel, ?_⟩
  intro cap w hp
  cases hp with
  | link l h =>
    have hr : knotFirst.route = [0] := by decide +kernel
    rw [hr] at h
    rw [List.mem_singleton.mp h]
    decide +kernel
  | source => decide +kernel
  | sink d a h ha =>
    have hr : knotFirst.params.dst = .unicast ⟨0, 0, 1⟩ := by decide +kernel
    rw [hr] at h
    have e := Dest.unicast.inj h
    subst e
    have ha' : Sample.dev.getSinkAbsorptionRate ⟨0, 0, 1⟩ = .ok 24 := by decide +kernel
    rw [ha'] at ha
    have e := Out.ok.inj ha
    subst e
    decide +kernel

/-- C139 for a point that is the worst one of all its users: if it is overloaded and every active transfer that is
counted there passes it and passes none that serves a smaller part of its load, then afterwards its capacity is
exactly used up.  Missing: points some of whose users are slowed more elsewhere, see `C139_violated`; rounding. -/
theorem C139_partial (dev : Device) (hd : DeviceOk dev) (hc : Capacities dev) (sot curr : Nat) (hle : sot ≤ curr)
    (hcurr : curr < 4294967296) (ts ts' : List TState) (live : List Nat) (g : Grids) (hs : Sane curr ts live)
    (hr : ∀ i ∈ live, ∀ t, ts[i]? = some t → RectsOk t.params)
    (h : modelCongestion .exact dev sot curr ts live = .ok (ts', g)) (cap : ℚ) (w : TState → Nat)
    (hw : ∀ t u : TState, t.params = u.params → t.route = u.route → w t = w u)
    (hcap : 0 ≤ cap) (hover : cap < offered w sot curr ts live)
    (hworst : ∀ i ∈ live, ∀ t, ts[i]? = some t → w t ≠ 0 → Passes dev t cap w ∧
      ∀ cap' w', Passes dev t cap' w' → offered w' sot curr ts live ≤ cap' ∨
        cap / offered w sot curr ts live ≤ cap' / offered w' sot curr ts live) :
    offered w sot curr ts' live = cap := by
  have hpos : 0 < offered w sot curr ts live := lt_of_le_of_lt hcap hover
  have hw3 := (modelCongestion_parts hs.1 h).2.2
  have hkey : offered w sot curr ts' live =
      cap / offered w sot curr ts live * offered w sot curr ts live := by
    conv_lhs => unfold offered
    conv_rhs => arg 2; unfold offered
    rw [← List.sum_map_mul_left]
    congr 1
    refine List.map_congr_left fun i hi => ?_
    obtain ⟨t, b, a1, _, a3⟩ := hw3.2.2 i hi
    rw [a1, a3]
    simp only
    have hsame : w { t with bw := b } = w t := hw _ _ rfl rfl
    rw [hsame]
    by_cases hz : w t = 0
    · rw [hz]; simp
    obtain ⟨hp, hmin⟩ := hworst i hi t a1 hz
    obtain ⟨cap1, w1, q1, q2, q3, q4⟩ := C138_worst dev hd hc sot curr hle hcurr ts ts' live g hs hr h i hi t _ a1 a3
      ⟨cap, w, hp, hover⟩
    have hb : b = t.bw * (cap / offered w sot curr ts live) := by
      have e : cap1 / offered w1 sot curr ts live = cap / offered w sot curr ts live := by
        refine le_antisymm (q4 cap w hp hover) ?_
        rcases hmin cap1 w1 q1 with hh | hh
        · exact absurd q2 (not_lt.mpr hh)
        · exact hh
      rw [← e]
      exact q3
    rw [hb]
    have : share sot curr { t with bw := t.bw * (cap / offered w sot curr ts live) } = share sot curr t := rfl
    rw [this]
    ring
  rw [hkey]
  exact div_mul_cancel₀ cap hpos.ne'

/-- C139 with rounding, for a point that is the worst one of all its users: its capacity is used up to a part in 100,
and to a 2^21-th of what it is asked for, if at most 65536 demands are added at each point that its users pass.
Missing: points some of whose users are slowed more elsewhere, see `C139_violated`. -/
theorem C139_rounded_partial (fp : FP) (dev : Device) (hd : DeviceOk dev) (hc : Capacities dev) (sot curr : Nat)
    (hlt : sot < curr) (hcurr : curr < 4294967296) (ts ts' : List TState) (live : List Nat) (g : Grids)
    (hs : Sane curr ts live) (hr : ∀ i ∈ live, ∀ t, ts[i]? = some t → RectsOk t.params)
    (h : modelCongestion fp dev sot curr ts live = .ok (ts', g)) (cap : ℚ) (w : TState → Nat)
    (hw : ∀ t u : TState, t.params = u.params → t.route = u.route → w t = w u)
    (hcap : 0 ≤ cap) (hover : cap < offered w sot curr ts live)
    (huse : ∀ i ∈ live, ∀ t, ts[i]? = some t → w t ≠ 0 → ∀ cap' w', Passes dev t cap' w' → uses w' ts live ≤ 65536)
    (hworst : ∀ i ∈ live, ∀ t, ts[i]? = some t → w t ≠ 0 → Passes dev t cap w ∧
      ∀ cap' w', Passes dev t cap' w' → offered w' sot curr ts live ≤ cap' ∨
        cap / offered w sot curr ts live ≤ cap' / offered w' sot curr ts live) :
    |offered w sot curr ts' live - cap| ≤ cap / 100 + offered w sot curr ts live / 2097152 := by
  have hpos : 0 < offered w sot curr ts live := lt_of_le_of_lt hcap hover
  have hw3 := (modelCongestion_parts hs.1 h).2.2
  have key : ∀ q : ℚ, q = cap / offered w sot curr ts live →
      (offered w sot curr ts live * (q - (q / 100 + 1 / 2097152)) ≤ offered w sot curr ts' live) ∧
      offered w sot curr ts' live ≤ offered w sot curr ts live * (q + (q / 100 + 1 / 2097152)) := by
    intro q hq
    have hterm : ∀ i ∈ live,
        (match ts[i]? with | some t => (w t : ℚ) * (share sot curr t * t.bw) | none => 0) *
          (q - (q / 100 + 1 / 2097152)) ≤
        (match ts'[i]? with | some t => (w t : ℚ) * (share sot curr t * t.bw) | none => 0) ∧
        (match ts'[i]? with | some t => (w t : ℚ) * (share sot curr t * t.bw) | none => 0) ≤
        (match ts[i]? with | some t => (w t : ℚ) * (share sot curr t * t.bw) | none => 0) *
          (q + (q / 100 + 1 / 2097152)) := by
      intro i hi
      obtain ⟨t, b, a1, _, a3⟩ := hw3.2.2 i hi
      rw [a1, a3]
      simp only
      have hsame : w { t with bw := b } = w t := hw _ _ rfl rfl
      have hshare : share sot curr { t with bw := b } = share sot curr t := rfl
      rw [hsame, hshare]
      by_cases hz : w t = 0
      · rw [hz]; simp
      obtain ⟨hp, hmin⟩ := hworst i hi t a1 hz
      obtain ⟨cap1, w1, q1, q2, q3, q4⟩ := C138_worst_rounded fp dev hd hc sot curr hlt hcurr ts ts' live g hs hr h i
        hi t _ a1 a3 (huse i hi t a1 hz) ⟨cap, w, hp, hover⟩
      have e : cap1 / offered w1 sot curr ts live = q := by
        rw [hq]
        refine le_antisymm (q4 cap w hp hover) ?_
        rcases hmin cap1 w1 q1 with hh | hh
        · exact absurd q2 (not_lt.mpr hh)
        · exact hh
      rw [e] at q3
      have hk : 0 ≤ (w t : ℚ) * share sot curr t :=
        mul_nonneg (by positivity) (share_nonneg hlt.le (hs.2 i hi t a1).1)
      have q3' : |b - t.bw * q| ≤ t.bw * (q / 100 + 1 / 2097152) := q3
      have q5 := abs_le.mp q3'
      have l1 := mul_le_mul_of_nonneg_left (show t.bw * (q - (q / 100 + 1 / 2097152)) ≤ b by linarith [q5.1]) hk
      have l2 := mul_le_mul_of_nonneg_left (show b ≤ t.bw * (q + (q / 100 + 1 / 2097152)) by linarith [q5.2]) hk
      exact ⟨by linarith, by linarith⟩
    unfold offered
    rw [← List.sum_map_mul_right, ← List.sum_map_mul_right]
    exact ⟨List.sum_le_sum fun i hi => (hterm i hi).1, List.sum_le_sum fun i hi => (hterm i hi).2⟩
  obtain ⟨k1, k2⟩ := key _ rfl
  have e : offered w sot curr ts live * (cap / offered w sot curr ts live) = cap := mul_div_cancel₀ cap hpos.ne'
  rw [abs_le]
  exact ⟨by linarith, by linarith⟩

/-- The sink (1,1) is the worst point of all its users: afterwards it absorbs exactly its 28.1 bytes per cycle. -/
example : offered (reaches Sample.dev .noc0 ⟨0, 1, 1⟩) 0 128 knotIn [0, 1, 2, 3] = 76 ∧
    offered (reaches Sample.dev .noc0 ⟨0, 1, 1⟩) 0 128 knotOut [0, 1, 2, 3] = 281 / 10 := by decide +kernel

/-- In IEEE arithmetic it is a little overloaded. -/
example : offered (reaches Sample.dev .noc0 ⟨0, 1, 1⟩) 0 128
    (statesOf (ratesOf .ieee Sample.dev true knot [0, 1, 2, 3])) [0, 1, 2, 3] = 281 / 10 + 1 / 2621440 := by
  decide +kernel

end NPE.Props
