import Verif.Props.Overload
import Verif.Props.Grain
import Verif.Props.Mono

/-
Properties C115 and C123 for transfers that wait for each other: a run without congestion is not much later than any other run
of the same workload.
-/

namespace NPE.Props
open NPE NPE.Spec NPE.Spec.Fluid

/-- The end of a transfer in a run without congestion, compared with its end in any other run of the workload, with any length of
the timestep and with or without congestion. -/
theorem alone_later (fp : FP) (dev : Device) (hT : TableOk fp dev.tbt) (ho : HashOrder) (hb : ∀ l, (ho.buckets l).Perm l) (wl : Workload)
    (hw : ∀ t ∈ wl.transfers, t.packetSize < 4294967296 ∧ SaneRate fp t)
    (cpt : Nat) (hcpt : cpt ≤ 25000000) (golden : GoldenMap) (en : Bool) (s : Sim) (c : Nat)
    (h : runLoop (simConfig fp dev cpt golden en) ho wl = .ok (.finished s c))
    (cpt' : Nat) (hpos' : 0 < cpt') (hcpt' : cpt' < 4244967296) (golden' : GoldenMap) (s' : Sim) (c' : Nat)
    (h' : runLoop (simConfig fp dev cpt' golden' false) ho wl = .ok (.finished s' c')) (hc' : c' ≤ 50000000)
    (M : Nat) (hM : 1 ≤ M) (hrate : ∀ t ∈ wl.transfers, (M * (1 + 1 / 4194304) : ℚ) ≤ cpt' * own fp dev t)
    (i : Nat) (t t' : TState) (ht : s.ts[i]? = some t) (ht' : s'.ts[i]? = some t') :
    (t'.endc : ℚ) ≤ (1 + 1 / M) * (1 + 1 / 1048576) * t.endc +
      wl.transfers.length * ((1 + 1 / M) * (1 + 1 / 1048576) * (cpt + 24) + 3 * cpt' + 26) + cpt' + 26 := by
  obtain ⟨s0, h0, hs⟩ := finished_reach h
  obtain ⟨s0', h0', hs'⟩ := finished_reach h'
  have e0 : s0' = s0 := Out.ok.inj (h0'.symm.trans h0)
  subst e0
  have hr := C14_device_models fp dev en cpt golden
  have hr' := C14_device_models fp dev false cpt' golden'
  have hi0 := init_inv h0
  have hMp : (0 : ℚ) < M := by exact_mod_cast hM
  have hcp' : (0 : ℚ) < cpt' := by exact_mod_cast hpos'
  have hown : ∀ t ∈ wl.transfers, 0 < own fp dev t := fun t ht =>
    (mul_pos_iff_of_pos_left hcp').mp (lt_of_lt_of_le (by positivity) (hrate t ht))
  obtain ⟨x, hx, hxe⟩ := C159_ends fp dev cpt' hpos' hcpt' golden' ho wl M hM hrate s' c' h' hc' i t' ht'
  have hperm := (C14_all_delivered _ hr' ho wl s' c' h').1
  have hmem : ∀ u ∈ s'.ts, u.params ∈ wl.transfers := fun u hu => hperm.subset (List.mem_map.mpr ⟨u, hu, rfl⟩)
  have hlen : s'.ts.length = wl.transfers.length := by
    have := hperm.length_eq
    rwa [List.length_map] at this
  obtain ⟨rank, hrank'⟩ := finished_rank h0 hpos' hcpt' h'
  have hrank : ∀ a b e, WaitsFor s' a b e → rank b < rank a := fun a b e hwait =>
    hrank' a b e ((hs'.waitsFor_iff hr' hi0 a b e).mp hwait)
  have hB0 : 1 ≤ (1 + 1 / (M : ℚ)) := by
    have : 0 < 1 / (M : ℚ) := by positivity
    linarith
  have hF : 1 ≤ (1 + 1 / (M : ℚ)) * (1 + 1 / 1048576) := by linarith
  obtain ⟨x', hx', hle'⟩ := chain_compare (f := mostTime fp dev cpt' M) (f' := leastTime fp dev cpt) (s := s')
    (F := (1 + 1 / M) * (1 + 1 / 1048576)) (K := (1 + 1 / M) * (1 + 1 / 1048576) * (cpt + 24) + 3 * cpt' + 26) (o := 0) hF (by positivity)
    rank hrank (fun u _ => Nat.cast_nonneg _) (fun u hu => by
      unfold mostTime leastTime
      have hal : 0 ≤ aloneTime fp dev u := div_nonneg (Nat.cast_nonneg _) (hown _ (hmem u hu)).le
      generalize aloneTime fp dev u = a at hal ⊢
      have hex : (extraCredit cpt u : ℚ) ≤ cpt := by
        unfold extraCredit
        split
        · exact Nat.cast_nonneg _
        · exact le_rfl
      generalize (extraCredit cpt u : ℚ) = ec at hex ⊢
      generalize (1 + 1 / (M : ℚ)) = B at hB0 ⊢
      have h1 : (1 + 1 / 4194304) * a ≤ (1 + 1 / 1048576) * (a / (1 + 1 / 16777216) ^ 2) := by
        rw [mul_div_assoc', le_div_iff₀ (by norm_num)]
        linarith
      have h2 : (1 + 1 / 4194304) * a ≤ (1 + 1 / 1048576) * (a / (1 + 1 / 16777216) ^ 2 - 24 - ec + (cpt + 24)) := by linarith
      have h3 := mul_le_mul_of_nonneg_left h2 (show 0 ≤ B by linarith)
      linarith) hx
  have hx'' : ChainTime (leastTime fp dev cpt) s i x' := by
    refine chain_same ((hs'.stat hr' hi0).trans (hs.stat hr hi0).symm) (fun u u' e => ?_) (fun a b e hwait => ?_) hx'
    · have hp : u.params = u'.params := congrArg (·.1) e
      have hdep : u.dependsOn = u'.dependsOn := congrArg (·.2.2.1) e
      unfold leastTime aloneTime extraCredit
      rw [hp, hdep]
    · exact (hs.waitsFor_iff hr hi0 a b e).mpr ((hs'.waitsFor_iff hr' hi0 a b e).mp hwait)
  have hlow := C157_partial fp dev hT cpt hcpt golden en ho hb wl
    (fun u hu => ⟨(hw u hu).1, (hw u hu).2, hown u hu⟩) s c h i t ht x' hx''
  have h3 : (1 + 1 / (M : ℚ)) * (1 + 1 / 1048576) * x' ≤ (1 + 1 / M) * (1 + 1 / 1048576) * t.endc :=
    mul_le_mul_of_nonneg_left hlow (by positivity)
  rw [hlen] at hle'
  linarith

/-- C115 for transfers that may wait for each other, for any rounding (missing: `C115_violated` shows that the additions are
needed in part): a transfer does not end much earlier with congestion than without. -/
theorem C115_waiting_partial (fp : FP) (dev : Device) (hT : TableOk fp dev.tbt) (cpt : Nat) (hpos : 0 < cpt) (hcpt : cpt ≤ 25000000)
    (golden : GoldenMap) (ho : HashOrder) (hb : ∀ l, (ho.buckets l).Perm l) (wl : Workload)
    (hw : ∀ t ∈ wl.transfers, t.packetSize < 4294967296 ∧ SaneRate fp t) (M : Nat) (hM : 1 ≤ M)
    (hrate : ∀ t ∈ wl.transfers, (M * (1 + 1 / 4194304) : ℚ) ≤ cpt * own fp dev t) (s s' : Sim) (c c' : Nat)
    (h : runLoop (simConfig fp dev cpt golden true) ho wl = .ok (.finished s c))
    (h' : runLoop (simConfig fp dev cpt golden false) ho wl = .ok (.finished s' c')) (hc' : c' ≤ 50000000)
    (i : Nat) (t t' : TState) (ht : s.ts[i]? = some t) (ht' : s'.ts[i]? = some t') :
    (t'.endc : ℚ) ≤ (1 + 1 / M) * (1 + 1 / 1048576) * t.endc +
      wl.transfers.length * ((1 + 1 / M) * (1 + 1 / 1048576) * (cpt + 24) + 3 * cpt + 26) + cpt + 26 :=
  alone_later fp dev hT ho hb wl hw cpt hcpt golden true s c h cpt hpos (by omega) golden s' c' h' hc' M hM hrate i t t' ht ht'

/-- C123 for transfers that may wait for each other, for any rounding (missing: `C123_violated` shows that the additions are needed
in part): without congestion, with another length of the timestep a transfer does not end much later. -/
theorem C123_waiting_partial (fp : FP) (dev : Device) (hT : TableOk fp dev.tbt) (cpt cpt' : Nat) (hcpt : cpt ≤ 25000000)
    (hpos' : 0 < cpt') (hcpt' : cpt' ≤ 25000000) (golden : GoldenMap) (ho : HashOrder) (hb : ∀ l, (ho.buckets l).Perm l)
    (wl : Workload) (hw : ∀ t ∈ wl.transfers, t.packetSize < 4294967296 ∧ SaneRate fp t) (M : Nat) (hM : 1 ≤ M)
    (hrate : ∀ t ∈ wl.transfers, (M * (1 + 1 / 4194304) : ℚ) ≤ cpt' * own fp dev t) (s s' : Sim) (c c' : Nat)
    (h : runLoop (simConfig fp dev cpt golden false) ho wl = .ok (.finished s c))
    (h' : runLoop (simConfig fp dev cpt' golden false) ho wl = .ok (.finished s' c')) (hc' : c' ≤ 50000000)
    (i : Nat) (t t' : TState) (ht : s.ts[i]? = some t) (ht' : s'.ts[i]? = some t') :
    (t'.endc : ℚ) ≤ (1 + 1 / M) * (1 + 1 / 1048576) * t.endc +
      wl.transfers.length * ((1 + 1 / M) * (1 + 1 / 1048576) * (cpt + 24) + 3 * cpt' + 26) + cpt' + 26 :=
  alone_later fp dev hT ho hb wl hw cpt hcpt golden false s c h cpt' hpos' (by omega) golden s' c' h' hc' M hM hrate i t t' ht ht'

/-! ### Example -/

/-- Five transfers in one queue end at cycle 2700 with timesteps of 128 cycles and at cycle 2600 with timesteps of 50 cycles; they
move 50 bytes in the shorter timesteps, and no rounding takes place. -/
example : timesAt 128 (List.replicate 5 (Sample.tr 900 0)) =
      some (2816, [(0, 900), (0, 900), (900, 1800), (900, 1800), (1800, 2700)]) ∧
    timesAt 50 (List.replicate 5 (Sample.tr 900 0)) =
      some (2600, [(0, 900), (0, 900), (900, 1750), (900, 1750), (1750, 2600)]) := by decide +kernel

/-- The transfers of `C115_violated`, of which the third ends 28 cycles earlier with congestion: they move 2559 bytes in a timestep,
and the bound for the third is below 2121. -/
example : (∀ t ∈ [feed 1000, feed 20, feed 3600], (2559 * (1 + 1 / 4194304) : ℚ) ≤ 128 * own .exact Sample.dev t) ∧
    ((1 + 1 / 2559) * (1 + 1 / 1048576) * 280 + 3 * ((1 + 1 / 2559) * (1 + 1 / 1048576) * (128 + 24) + 3 * 128 + 26) + 128 + 26 : ℚ) <
      2121 := by decide +kernel

end NPE.Props
