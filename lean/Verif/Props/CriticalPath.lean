import Verif.Proofs.CriticalPath
import Verif.Props.Chain
import Verif.Props.SerialRounded

/-
Property C159: without congestion the longest chain of transfers that wait for each other determines the estimate.
-/

namespace NPE.Props
open NPE NPE.Spec NPE.Spec.Fluid

/-- The time that a transfer needs alone, with additions for whole bytes, rounding and timesteps. -/
def mostTime (fp : FP) (dev : Device) (cpt M : Nat) (t : TState) : ℚ :=
  (1 + 1 / M) * (1 + 1 / 4194304) * aloneTime fp dev t + 3 * cpt + 26

/-- C159, for any rounding, for transfers that move at least `M` bytes in a timestep: at the end of every run without congestion
each transfer has ended not later than some chain of transfers that ends with it.  (`C157_partial` says that it has ended not
earlier than any.)  The transfers may be in groups. -/
theorem C159_ends (fp : FP) (dev : Device) (cpt : Nat) (hpos : 0 < cpt) (hcpt : cpt < 4244967296) (golden : GoldenMap) (ho : HashOrder)
    (wl : Workload) (M : Nat) (hM : 1 ≤ M) (hrate : ∀ t ∈ wl.transfers, (M * (1 + 1 / 4194304) : ℚ) ≤ cpt * own fp dev t)
    (s : Sim) (c : Nat) (h : runLoop (simConfig fp dev cpt golden false) ho wl = .ok (.finished s c)) (hc : c ≤ 50000000)
    (i : Nat) (t : TState) (ht : s.ts[i]? = some t) :
    ∃ x, ChainTime (mostTime fp dev cpt M) s i x ∧ (t.endc : ℚ) ≤ x + cpt + 26 := by
  obtain ⟨s0, h0, hs⟩ := finished_reach h
  have hr := C14_device_models fp dev false cpt golden
  have hi0 := init_inv h0
  obtain ⟨job, hd⟩ := describes_exists h0
  obtain ⟨hlen, kf, hk1, hck, hfin, _⟩ := (C111_alone fp dev cpt hpos hcpt golden ho wl s0 h0 job hd).2 _ h
  have hcp : (0 : ℚ) < cpt := by exact_mod_cast hpos
  have hMp : (0 : ℚ) < M := by exact_mod_cast hM
  have hlate : ∀ k, k ≤ kf → k * cpt ≤ 50000000 := fun k hk => by
    have := Nat.mul_le_mul_right cpt hk
    omega
  have hnear : ∀ k, k ≤ kf → ∀ j c e, run fp.f32.fl job cpt (alone fp dev job) k j = .finished c e → e ≤ (k + 1) * cpt + 26 := by
    intro k hk j c e hf
    have := near_late (R := fp.f32) (job := job) (cpt := cpt) (speed := alone fp dev job) k (hlate k hk) j
    rw [hf] at this
    exact this.2
  have hrate' : ∀ j, j < s0.ts.length → (M * (1 + 1 / 4194304) : ℚ) ≤ cpt * own fp dev (job j).t := fun j hj =>
    hrate _ (describes_mem h0 hd hj)
  have hown : ∀ j, j < s0.ts.length → 0 < own fp dev (job j).t := fun j hj =>
    (mul_pos_iff_of_pos_left hcp).mp (lt_of_lt_of_le (by positivity) (hrate' j hj))
  have hi : i < s.ts.length := (List.getElem?_eq_some_iff.mp ht).1
  -- the timestep in which it finished
  obtain ⟨k, hk, hk2, hk3⟩ := first_finished (hfin i t ht)
  obtain ⟨x, hx, hle⟩ := finish_chain (R := fp.f32) (job := job) (n := s0.ts.length) (cpt := cpt) (speed := alone fp dev job) (x := 26)
    (K := kf) ((1 + 1 / M) * (1 + 1 / 4194304)) (by positivity) (fun j => own fp dev (job j).t)
    (fun j => perStep fp.f32.fl cpt (own fp dev (job j).t)) hown (fun j hj _ _ ha => describes_closed hd hj ha)
    (fun j hj => perStep_tight (hown j hj).le (hrate' j hj) hM) (fun j hj k hk c m _ => le_rfl) (fun k hk => hnear k hk.le)
    k hk i (by omega) _ _ hk2 hk3
  refine ⟨x, hx.chainTime (fun j u hu => ?_) (fun j hj p d ha => ?_) hi, ?_⟩
  · obtain ⟨u0, hu0, hst⟩ := map_stat_get (hs.stat hr hi0) hu
    have hp : u.params = u0.params := congrArg (·.1) hst
    rw [(hd j u0 hu0).1, hp]
    refine ⟨rfl, ?_⟩
    unfold mostTime aloneTime needed
    rw [hp]
    push_cast
    ring
  · have hj' : j < s0.ts.length := by omega
    refine ⟨by have := describes_closed hd hj' ha; omega, ?_⟩
    rw [hs.waitsFor_iff hr hi0]
    exact ((hd j _ (List.getElem?_eq_getElem hj')).2.2 p d).mp ha
  · have h1 := hnear (k + 1) (by omega) i _ _ hk2
    have h2 : (t.endc : ℚ) ≤ (((k + 1 + 1) * cpt + 26 : ℕ) : ℚ) := by exact_mod_cast h1
    push_cast at h2
    linarith

/-- C159 for the figures that are reported. -/
theorem C159_estimated (fp : FP) (dev : Device) (hdev : DeviceOk dev) (cpt : Nat) (hpos : 0 < cpt) (hcpt : cpt < 4244967296) (ho : HashOrder)
    (wl : Workload) (M : Nat) (hM : 1 ≤ M) (hrate : ∀ t ∈ wl.transfers, (M * (1 + 1 / 4194304) : ℚ) ≤ cpt * own fp dev t)
    (hon : OnChips dev wl.transfers) (s : Sim) (st : Stats) (h : runSingle fp dev ho cpt false wl = .ok (.inl (s, st)))
    (hc : ∀ c, runLoop (simConfig fp dev cpt wl.golden false) ho wl = .ok (.finished s c) → c ≤ 50000000)
    (d : Int) (ds : DevStats) (g : Nat × Nat) (hm : (d, ds) ∈ st) (hg : wl.golden.at d = .ok g) :
    (∃ (i : Nat) (t : TState) (x : ℚ), s.ts[i]? = some t ∧ Relevant d g t.params ∧ ChainTime (mostTime fp dev cpt M) s i x ∧
      (ds.estimated : ℚ) + g.1 ≤ x + cpt + 26) ∨ ds.estimated = 0 := by
  obtain ⟨s0, c, h0, hrun, _⟩ := runSingle_ok h
  obtain ⟨gs, ge, m, e1, e2, _, e4, e5, _⟩ := C35_estimated fp dev hdev cpt hpos false ho wl hon s st h d ds hm
  rw [hg] at e1
  have e1 := Out.ok.inj e1
  subst e1
  rcases le_total gs m with hle | hle
  · rcases e2.2 with hz | ⟨t, ht, hrel, hend⟩
    · refine Or.inr ?_
      have := e4 hle
      omega
    · refine Or.inl ?_
      obtain ⟨i, hi⟩ := List.mem_iff_getElem?.mp ht
      obtain ⟨x, hx, hxe⟩ := C159_ends fp dev cpt hpos hcpt wl.golden ho wl M hM hrate s c hrun (hc c hrun) i t hi
      refine ⟨i, t, x, hi, hrel, hx, ?_⟩
      have h2 := e4 hle
      have h3 : (ds.estimated : ℚ) + gs ≤ t.endc := by
        have : ds.estimated + gs ≤ t.endc := by omega
        exact_mod_cast this
      show (ds.estimated : ℚ) + gs ≤ _
      linarith
  · exact Or.inr (e5 hle)

/-- Five transfers of 900 bytes in one queue, with one byte per cycle (127 bytes and more in each timestep): the last one waits
for the third, which waits for the first, and it ends at cycle 2700.  The lower bound of `C157_partial` is above 2371, the upper
bound below 4106. -/
example : (match endOf (List.replicate 5 (Sample.tr 900 0)) false with
    | some s => waitsTest s 4 2 0 && waitsTest s 2 0 0 && decide (s.ts.map (·.endc) = [900, 900, 1800, 1800, 2700]) &&
        decide (2371 < (([0, 2, 4].filterMap fun i : Nat => s.ts[i]?).map (leastTime .exact Sample.dev 128)).sum) &&
        decide ((([0, 2, 4].filterMap fun i : Nat => s.ts[i]?).map (mostTime .exact Sample.dev 128 127)).sum + 128 + 26 < 4106)
    | _ => false) = true ∧
    ∀ t ∈ (windowed 0 (List.replicate 5 (Sample.tr 900 0))).transfers, (127 * (1 + 1 / 4194304) : ℚ) ≤ 128 * own .exact Sample.dev t := by
  constructor <;> decide +kernel

end NPE.Props
