import Verif.Spec.Overload
import Verif.Props.CriticalPath
import Verif.Props.Slowdown

/-
Property C160: congestion lengthens the chains of waiting transfers at most by the factor by which points are overloaded.
-/

namespace NPE.Props
open NPE NPE.Spec NPE.Spec.Fluid

/-- The time that a transfer needs if it has one part in `A` of its bandwidth, with additions for whole bytes, rounding and
timesteps. -/
def slowTime (fp : FP) (dev : Device) (cpt M : Nat) (A : ℚ) (t : TState) : ℚ :=
  33 / 32 * ((1 + 1 / M) * A) * aloneTime fp dev t + 3 * cpt + 26

/-- What is asked for in a timestep is at most what all transfers ask for at once. -/
theorem asked_all {fp : FP} {dev : Device} {job : Nat → Job} {s0 : Sim} (hd : Describes job s0) {cpt curr : Nat} (hpos : 0 < cpt)
    (hcur : cpt ≤ curr) {σ : Fluid.State} (hown : ∀ j, j < s0.ts.length → 0 ≤ own fp dev (job j).t)
    {w : TState → Nat} {i c : Nat} {cap : ℚ} (hp : Passes dev ((job i).began c) cap w) :
    asked fp dev job s0.ts.length cpt w curr σ ≤ (s0.ts.map fun u => (w u : ℚ) * own fp dev u.params).sum := by
  have hwt := passes_weight hp
  have e : (s0.ts.map fun u => (w u : ℚ) * own fp dev u.params) =
      (List.range s0.ts.length).map fun j => (w ((job j).began 0) : ℚ) * own fp dev (job j).t := by
    refine List.ext_getElem? fun j => ?_
    rw [List.getElem?_map, List.getElem?_map]
    by_cases hj : j < s0.ts.length
    · rw [List.getElem?_eq_getElem hj, List.getElem?_range hj, Option.map_some, Option.map_some]
      obtain ⟨e1, e2, _⟩ := hd j _ (List.getElem?_eq_getElem hj)
      rw [hwt s0.ts[j] ((job j).began 0) e1.symm e2.symm, e1]
    · rw [List.getElem?_eq_none (by omega), List.getElem?_eq_none (by rw [List.length_range]; omega)]
      rfl
  rw [e]
  unfold asked
  refine List.sum_le_sum fun j hj => ?_
  have hj := List.mem_range.mp hj
  have h0 : 0 ≤ (w ((job j).began 0) : ℚ) * own fp dev (job j).t := mul_nonneg (Nat.cast_nonneg _) (hown j hj)
  cases hσ : σ j with
  | waiting => exact h0
  | finished x y => exact h0
  | active x y =>
    simp only
    rw [hwt ((job j).began x) ((job j).began 0) rfl rfl]
    have hsh : share (curr - cpt) curr ((job j).began x) ≤ 1 := by
      unfold share Job.began
      have e1 : ((curr - cpt : ℕ) : ℚ) = (curr : ℚ) - cpt := by push_cast [Nat.cast_sub hcur]; ring
      have hp : (0 : ℚ) < cpt := by exact_mod_cast hpos
      rw [div_le_one (by rw [e1]; linarith)]
      have : ((curr - cpt : ℕ) : ℚ) ≤ ((max (curr - cpt) x : ℕ) : ℚ) := by exact_mod_cast le_max_left _ _
      linarith
    exact mul_le_mul_of_nonneg_left (mul_le_of_le_one_left (hown j hj) hsh) (Nat.cast_nonneg _)

/-- C160, for any rounding, for transfers that move at least `M` bytes in a timestep with one part in `A` of their bandwidth: if
all transfers at once ask no point for more than `A` times its capacity, then at the end of every run with congestion each
transfer has ended not later than some chain of transfers that ends with it and whose transfers have one part in `A` of their
bandwidth. -/
theorem C160_ends (fp : FP) (dev : Device) (hdev : DeviceOk dev) (hT : TableOk fp dev.tbt) (cpt : Nat) (hpos : 0 < cpt)
    (hcpt : cpt < 4244967296) (golden : GoldenMap) (ho : HashOrder) (wl : Workload)
    (hw : ∀ t ∈ wl.transfers, 0 ≤ t.injectionRate ∧ RectsOk t) (hrep : ∀ t ∈ wl.transfers, fp.f32.Rep t.injectionRate)
    (s0 : Sim) (h0 : initSim fp dev ho wl = .ok s0) (A : ℚ) (hA1 : 1 ≤ A) (hA2 : A ≤ 16384) (hover : OverloadAt fp dev s0 A)
    (hfew : FewUsers dev s0) (M : Nat) (hM : 1 ≤ M) (hrate : ∀ t ∈ wl.transfers, M * A * (33 / 32) ≤ cpt * own fp dev t)
    (s : Sim) (c : Nat) (h : runLoop (simConfig fp dev cpt golden true) ho wl = .ok (.finished s c)) (hc : c ≤ 50000000)
    (i : Nat) (t : TState) (ht : s.ts[i]? = some t) :
    ∃ x, ChainTime (slowTime fp dev cpt M A) s i x ∧ (t.endc : ℚ) ≤ x + cpt + 26 := by
  obtain ⟨s0', h0', hs⟩ := finished_reach h
  have e0 : s0' = s0 := Out.ok.inj (h0'.symm.trans h0)
  subst e0
  have hr := C14_device_models fp dev true cpt golden
  have hi0 := init_inv h0
  obtain ⟨job, hd⟩ := describes_exists h0
  obtain ⟨order, hR, hE⟩ := C111_shared fp dev hdev hT cpt hpos hcpt golden ho wl hw s0' h0 job hd
  obtain ⟨hlen, kf, hk1, hck, hfin, _⟩ := hE _ h
  obtain ⟨kf', hkf', _, hord⟩ := hR _ _ hs
  have hkk : kf' = kf := Nat.eq_of_mul_eq_mul_right hpos (hkf'.symm.trans hck)
  subst hkk
  have hcp : (0 : ℚ) < cpt := by exact_mod_cast hpos
  have hMp : (0 : ℚ) < M := by exact_mod_cast hM
  have hA0 : 0 < A := by linarith
  have hlate : ∀ k, k ≤ kf' → k * cpt ≤ 50000000 := fun k hk => by
    have := Nat.mul_le_mul_right cpt hk
    omega
  have hnear : ∀ k, k ≤ kf' → ∀ j c e, run fp.f32.fl job cpt (sharedIn fp dev job cpt order) k j = .finished c e →
      e ≤ (k + 1) * cpt + 26 := by
    intro k hk j c e hf
    have := near_late (R := fp.f32) (job := job) (cpt := cpt) (speed := sharedIn fp dev job cpt order) k (hlate k hk) j
    rw [hf] at this
    exact this.2
  have hinj : ∀ i, i < s0'.ts.length → 0 ≤ (job i).t.injectionRate := fun i hi => (hw _ (describes_mem h0 hd hi)).1
  have hrep' : ∀ i, i < s0'.ts.length → fp.f32.Rep (job i).t.injectionRate := fun i hi => hrep _ (describes_mem h0 hd hi)
  have hrate' : ∀ j, j < s0'.ts.length → M * A * (33 / 32) ≤ cpt * own fp dev (job j).t := fun j hj =>
    hrate _ (describes_mem h0 hd hj)
  have hown : ∀ j, j < s0'.ts.length → 0 < own fp dev (job j).t := fun j hj =>
    (mul_pos_iff_of_pos_left hcp).mp (lt_of_lt_of_le (by positivity) (hrate' j hj))
  have hi : i < s.ts.length := (List.getElem?_eq_some_iff.mp ht).1
  -- the speeds
  have hspeed : ∀ j, j < s0'.ts.length → ∀ k, k < kf' → ∀ c m,
      within fp.f32 job cpt (sharedIn fp dev job cpt order) k j = .active c m →
      own fp dev (job j).t / A * (491 / 500) ≤ sharedIn fp dev job cpt order ((k + 1) * cpt)
        (within fp.f32 job cpt (sharedIn fp dev job cpt order) k) j := by
    intro j hj k hk c m ha
    obtain ⟨o1, o2⟩ := hord k hk
    have hcur : cpt ≤ (k + 1) * cpt := Nat.le_mul_of_pos_left _ (by omega)
    have hlt : (k + 1) * cpt < 4294967296 := by
      have := hlate (k + 1) hk
      omega
    have hst : ∀ j c m, within fp.f32 job cpt (sharedIn fp dev job cpt order) k j = .active c m → c ≤ (k + 1) * cpt := active_le k
    refine sharedIn_underWay (fp := fp) (dev := dev) (job := job) (cpt := cpt) (order := order) (curr := (k + 1) * cpt)
      (i := j) (c := c) (σ := within fp.f32 job cpt (sharedIn fp dev job cpt order) k) hA1 hA2 (hown j hj).le
      (fun w => loadIn_nonneg (n := s0'.ts.length) hT hinj hrep' fun j hj => ((o2 j).mp hj).1) ?_
    intro cap w hpass
    have h2 := loadIn_close (fp := fp) (dev := dev) (cpt := cpt) (w := w) (fun j hj => (hown j hj).le) o1 o2
      (curr := (k + 1) * cpt) (fun j _ x y hx => hst j x y hx) hpos hcur hlt (passes_weight hpass)
      (askers_le hd hfew _ hj hpass)
    have h3 := asked_all (fp := fp) (σ := within fp.f32 job cpt (sharedIn fp dev job cpt order) k) hd hpos hcur
      (fun j hj => (hown j hj).le) hpass
    have h5 := hover _ (List.getElem_mem hj) cap w (passes_described hd hj hpass)
    have h4 := (abs_le.mp h2).2
    have h4' : loadIn fp dev job cpt (order ((k + 1) * cpt)) w ((k + 1) * cpt) (within fp.f32 job cpt (sharedIn fp dev job cpt order) k) -
      asked fp dev job s0'.ts.length cpt w ((k + 1) * cpt) (within fp.f32 job cpt (sharedIn fp dev job cpt order) k) ≤
      asked fp dev job s0'.ts.length cpt w ((k + 1) * cpt) (within fp.f32 job cpt (sharedIn fp dev job cpt order) k) / 128 := h4
    linarith
  have hbytes : ∀ j, j < s0'.ts.length → (cpt : ℚ) * own fp dev (job j).t ≤
      33 / 32 * ((1 + 1 / M) * A) * perStep fp.f32.fl cpt (own fp dev (job j).t / A * (491 / 500)) := by
    intro j hj
    have hrt := hrate' j hj
    have hob := hown j hj
    generalize own fp dev (job j).t = o at hrt hob ⊢
    have hps := perStep_large (fp := fp) (cpt := cpt) (v := o / A * (491 / 500)) (y := cpt * o / A) (M := M) (by positivity)
      (le_of_eq (by ring)) (by rw [le_div_iff₀ hA0]; linarith)
    generalize (perStep fp.f32.fl cpt (o / A * (491 / 500)) : ℚ) = P at hps ⊢
    have h2 : cpt * o / A ≤ 33 / 32 * (1 + 1 / M) * P := by
      have : 33 / 32 * (1 + 1 / (M : ℚ)) * P = (33 / 32 * ((M + 1) * P)) / M := by field_simp
      rw [this, le_div_iff₀ hMp]
      linarith
    rw [div_le_iff₀ hA0] at h2
    linarith
  -- the timestep in which it finished
  have hex : ∃ k, k < kf' ∧ run fp.f32.fl job cpt (sharedIn fp dev job cpt order) (k + 1) i = .finished t.start t.endc ∧
      ∀ c e, run fp.f32.fl job cpt (sharedIn fp dev job cpt order) k i ≠ .finished c e := first_finished (hfin i t ht)
  obtain ⟨k, hk, hk2, hk3⟩ := hex
  obtain ⟨x, hx, hle⟩ := finish_chain (R := fp.f32) (job := job) (n := s0'.ts.length) (cpt := cpt) (speed := sharedIn fp dev job cpt order)
    (x := 26) (K := kf') (33 / 32 * ((1 + 1 / M) * A)) (by positivity) (fun j => own fp dev (job j).t)
    (fun j => perStep fp.f32.fl cpt (own fp dev (job j).t / A * (491 / 500))) hown (fun j hj _ _ ha => describes_closed hd hj ha)
    hbytes (fun j hj k hk c m ha => perStep_le le_rfl (hspeed j hj k hk c m ha)) (fun k hk => hnear k hk.le)
    k hk i (by omega) _ _ hk2 hk3
  refine ⟨x, hx.chainTime (fun j u hu => ?_) (fun j hj p d ha => ?_) hi, ?_⟩
  · obtain ⟨u0, hu0, hst⟩ := map_stat_get (hs.stat hr hi0) hu
    have hp : u.params = u0.params := congrArg (·.1) hst
    rw [(hd j u0 hu0).1, hp]
    refine ⟨rfl, ?_⟩
    unfold slowTime aloneTime needed
    rw [hp]
    push_cast
    ring
  · have hj' : j < s0'.ts.length := by omega
    refine ⟨by have := describes_closed hd hj' ha; omega, ?_⟩
    rw [hs.waitsFor_iff hr hi0]
    exact ((hd j _ (List.getElem?_eq_getElem hj')).2.2 p d).mp ha
  · have h1 := hnear (k + 1) (by omega) i _ _ hk2
    have h2 : (t.endc : ℚ) ≤ (((k + 1 + 1) * cpt + 26 : ℕ) : ℚ) := by exact_mod_cast h1
    push_cast at h2
    linarith

/-- The workloads of C160 for any rounding. -/
structure Overloaded (fp : FP) (dev : Device) (cpt : Nat) (ho : HashOrder) (wl : Workload) (s0 : Sim) (M : Nat) (A : ℚ) : Prop where
  device : DeviceOk dev
  table : TableOk fp dev.tbt
  lo : 0 < cpt
  hi : cpt ≤ 25000000
  rate : ∀ t ∈ wl.transfers, 0 ≤ t.injectionRate ∧ RectsOk t
  rep : ∀ t ∈ wl.transfers, fp.f32.Rep t.injectionRate
  init : initSim fp dev ho wl = .ok s0
  one : 1 ≤ A
  factor : A ≤ 16384
  over : OverloadAt fp dev s0 A
  few : FewUsers dev s0
  pos : 1 ≤ M
  large : ∀ t ∈ wl.transfers, M * A * (33 / 32) ≤ cpt * own fp dev t

/-- C160 for the figures that are reported. -/
theorem C160_estimated (fp : FP) (dev : Device) (cpt : Nat) (ho : HashOrder) (wl : Workload) (s0 : Sim) (M : Nat) (A : ℚ)
    (S : Overloaded fp dev cpt ho wl s0 M A) (hon : OnChips dev wl.transfers)
    (s : Sim) (st : Stats) (h : runSingle fp dev ho cpt true wl = .ok (.inl (s, st)))
    (hc : ∀ c, runLoop (simConfig fp dev cpt wl.golden true) ho wl = .ok (.finished s c) → c ≤ 50000000)
    (d : Int) (ds : DevStats) (g : Nat × Nat) (hm : (d, ds) ∈ st) (hg : wl.golden.at d = .ok g) :
    (∃ (i : Nat) (t : TState) (x : ℚ), s.ts[i]? = some t ∧ Relevant d g t.params ∧ ChainTime (slowTime fp dev cpt M A) s i x ∧
      (ds.estimated : ℚ) + g.1 ≤ x + cpt + 26) ∨ ds.estimated = 0 := by
  obtain ⟨s0', c, h0, hrun, _⟩ := runSingle_ok h
  obtain ⟨gs, ge, m, e1, e2, _, e4, e5, _⟩ := C35_estimated fp dev S.device cpt S.lo true ho wl hon s st h d ds hm
  rw [hg] at e1
  have e1 := Out.ok.inj e1
  subst e1
  rcases le_total gs m with hle | hle
  · rcases e2.2 with hz | ⟨t, ht, hrel, hend⟩
    · refine Or.inr ?_
      have := e4 hle
      omega
    · refine Or.inl ?_
      obtain ⟨i, hi⟩ := List.mem_iff_getElem?.mp ht
      have hcpt : cpt < 4244967296 := by have := S.hi; omega
      obtain ⟨x, hx, hxe⟩ := C160_ends fp dev S.device S.table cpt S.lo hcpt wl.golden ho wl S.rate S.rep s0 S.init A S.one S.factor
        S.over S.few M S.pos S.large s c hrun (hc c hrun) i t hi
      refine ⟨i, t, x, hi, hrel, hx, ?_⟩
      have h2 := e4 hle
      have h3 : (ds.estimated : ℚ) + gs ≤ t.endc := by
        have : ds.estimated + gs ≤ t.endc := by omega
        exact_mod_cast this
      show (ds.estimated : ℚ) + gs ≤ _
      linarith
  · exact Or.inr (e5 hle)

/-- Longer durations lengthen a chain by at most a factor and an addition for each transfer of the workload. -/
theorem chain_compare {f f' : TState → ℚ} {s : Sim} {F K o : ℚ} (hF : 1 ≤ F) (hK : 0 ≤ K) (rank : Nat → Nat)
    (hrank : ∀ i j d, WaitsFor s i j d → rank j < rank i) (ho : ∀ t ∈ s.ts, o ≤ t.params.offset)
    (hf : ∀ t ∈ s.ts, f t ≤ F * f' t + K) {i : Nat} {x : ℚ} (h : ChainTime f s i x) :
    ∃ x', ChainTime f' s i x' ∧ x - o ≤ F * (x' - o) + s.ts.length * K := by
  have H : ∃ (x' : ℚ) (S : Finset Nat), ChainTime f' s i x' ∧ S ⊆ Finset.range s.ts.length ∧ (∀ k ∈ S, rank k ≤ rank i) ∧
      x - o ≤ F * (x' - o) + S.card * K := by
    induction h with
    | @first i t ht =>
      refine ⟨_, {i}, .first ht, ?_, ?_, ?_⟩
      · rw [Finset.singleton_subset_iff, Finset.mem_range]
        exact (List.getElem?_eq_some_iff.mp ht).1
      · intro k hk
        rw [Finset.mem_singleton.mp hk]
      · rw [Finset.card_singleton, Nat.cast_one, one_mul]
        have h1 := hf t (List.mem_of_getElem? ht)
        have h2 : 0 ≤ (t.params.offset : ℚ) - o := by linarith [ho t (List.mem_of_getElem? ht)]
        have h3 := mul_le_mul_of_nonneg_right hF h2
        linarith
    | @next i j d t x _ hwait ht ih =>
      obtain ⟨x', S, h1, h2, h3, h4⟩ := ih
      have hr := hrank i j d hwait
      have hni : i ∉ S := fun hi => by have := h3 i hi; omega
      refine ⟨_, insert i S, .next h1 hwait ht, ?_, ?_, ?_⟩
      · rw [Finset.insert_subset_iff, Finset.mem_range]
        exact ⟨(List.getElem?_eq_some_iff.mp ht).1, h2⟩
      · intro k hk
        rcases Finset.mem_insert.mp hk with rfl | hk
        · exact le_rfl
        · have := h3 k hk
          omega
      · rw [Finset.card_insert_of_notMem hni]
        push_cast
        have h5 := hf t (List.mem_of_getElem? ht)
        have h6 := mul_le_mul_of_nonneg_right hF (Nat.cast_nonneg (α := ℚ) d)
        linarith
  obtain ⟨x', S, h1, h2, _, h4⟩ := H
  refine ⟨x', h1, le_trans h4 ?_⟩
  have h5 : (S.card : ℚ) ≤ s.ts.length := by
    have := Finset.card_le_card h2
    rw [Finset.card_range] at this
    exact_mod_cast this
  have := mul_le_mul_of_nonneg_right h5 hK
  linarith

/-- The chains of two runs of a workload are the same. -/
theorem chain_same {f : TState → ℚ} {s s' : Sim} (hst : s.ts.map NPE.stat = s'.ts.map NPE.stat)
    (hf : ∀ t t', NPE.stat t = NPE.stat t' → f t = f t') (hw : ∀ i j d, WaitsFor s i j d → WaitsFor s' i j d) {i : Nat} {x : ℚ}
    (h : ChainTime f s i x) : ChainTime f s' i x := by
  induction h with
  | @first i t ht =>
    obtain ⟨t', ht', e⟩ := map_stat_get hst ht
    have hp : t.params = t'.params := congrArg (·.1) e
    rw [hp, hf t t' e]
    exact .first ht'
  | @next i j d t x _ hwait ht ih =>
    obtain ⟨t', ht', e⟩ := map_stat_get hst ht
    rw [hf t t' e]
    exact .next ih (hw i j d hwait) ht'

/-- A transfer that is not waiting began after the end of the transfer that it waits for. -/
theorem after_finished {R : Rounding} {job : Nat → Job} {cpt : Nat} {speed : Speed} {i j d : Nat} (ha : (job i).after = some (j, d))
    (k : Nat) (h : run R.fl job cpt speed k i ≠ .waiting) : ∃ k' c e, k = k' + 1 ∧ run R.fl job cpt speed k' j = .finished c e := by
  induction k with
  | zero => exact absurd rfl h
  | succ k ih =>
    by_cases hw : run R.fl job cpt speed k i = .waiting
    · have hb : begins job ((k + 1) * cpt) (run R.fl job cpt speed k) i ≠ none := by
        intro hb
        apply h
        show advance R.fl job cpt speed ((k + 1) * cpt) (start job ((k + 1) * cpt) (run R.fl job cpt speed k)) i = _
        unfold Fluid.advance Fluid.start
        rw [hb]
        simp only [hw]
      unfold begins at hb
      rw [hw, ha] at hb
      simp only at hb
      cases hj : run R.fl job cpt speed k j with
      | finished c e => exact ⟨k, c, e, rfl, hj⟩
      | waiting => rw [hj] at hb; simp at hb
      | active x y => rw [hj] at hb; simp at hb
    · obtain ⟨k', c, e, rfl, hj⟩ := ih hw
      exact ⟨_, c, e, rfl, run_finished_le (Nat.le_succ _) hj⟩

/-- If a run ends, no transfers wait for each other in a circle. -/
theorem finished_rank {fp : FP} {dev : Device} {ho : HashOrder} {wl : Workload} {s0 : Sim} (h0 : initSim fp dev ho wl = .ok s0)
    {cpt : Nat} (hpos : 0 < cpt) (hcpt : cpt < 4244967296) {golden : GoldenMap} {s : Sim} {c : Nat}
    (h : runLoop (simConfig fp dev cpt golden false) ho wl = .ok (.finished s c)) :
    ∃ rank : Nat → Nat, ∀ i j d, WaitsFor s0 i j d → rank j < rank i := by
  obtain ⟨job, hd⟩ := describes_exists h0
  obtain ⟨hlen, kf, _, _, hfin, _⟩ := (C111_alone fp dev cpt hpos hcpt golden ho wl s0 h0 job hd).2 _ h
  have hk : ∀ i, ∃ k, i < s0.ts.length → (∃ c e, run fp.f32.fl job cpt (alone fp dev job) (k + 1) i = .finished c e) ∧
      ∀ c e, run fp.f32.fl job cpt (alone fp dev job) k i ≠ .finished c e := by
    intro i
    by_cases hi : i < s0.ts.length
    · obtain ⟨k, _, h1, h2⟩ := first_finished (hfin i _ (List.getElem?_eq_getElem (by omega)))
      exact ⟨k, fun _ => ⟨⟨_, _, h1⟩, h2⟩⟩
    · exact ⟨0, fun h => absurd h hi⟩
  choose rank hrank using hk
  refine ⟨rank, fun i j d hw => ?_⟩
  have hw' := hw
  obtain ⟨ti, tj, _, hi, hj, _⟩ := hw'
  have ha := ((hd i _ hi).2.2 j d).mpr hw
  obtain ⟨⟨c1, e1, h1⟩, _⟩ := hrank i (List.getElem?_eq_some_iff.mp hi).1
  obtain ⟨k', c2, e2, hk', h2⟩ := after_finished ha _ (by rw [h1]; exact Prog.noConfusion)
  have hk' : rank i = k' := by omega
  subst hk'
  by_contra hn
  exact (hrank j (List.getElem?_eq_some_iff.mp hj).1).2 _ _ (run_finished_le (Nat.le_of_not_lt hn) h2)

/-- C160, as a relation between the two estimates, for any rounding: the estimate with congestion is at most `A` times the
estimate without congestion, if all transfers at once ask no point for more than `A` times its capacity and all transfers count
for the device.  A few timesteps for each transfer and a small part are added for rounding. -/
theorem C160_slowdown (fp : FP) (dev : Device) (cpt : Nat) (ho : HashOrder) (hb : ∀ l, (ho.buckets l).Perm l) (wl : Workload) (s0 : Sim)
    (M : Nat) (A : ℚ) (S : Overloaded fp dev cpt ho wl s0 M A) (hon : OnChips dev wl.transfers)
    (hsize : ∀ t ∈ wl.transfers, t.packetSize < 4294967296)
    (s s' : Sim) (st st' : Stats) (h : runSingle fp dev ho cpt true wl = .ok (.inl (s, st)))
    (h' : runSingle fp dev ho cpt false wl = .ok (.inl (s', st')))
    (hc : ∀ c, runLoop (simConfig fp dev cpt wl.golden true) ho wl = .ok (.finished s c) → c ≤ 50000000)
    (d : Int) (ds ds' : DevStats) (g : Nat × Nat) (hm : (d, ds) ∈ st) (hm' : (d, ds') ∈ st') (hg : wl.golden.at d = .ok g)
    (hrel : ∀ t ∈ wl.transfers, Relevant d g t) :
    (ds.estimated : ℚ) ≤ 17 / 16 * ((1 + 1 / M) * A) * ds'.estimated +
      wl.transfers.length * (17 / 16 * ((1 + 1 / M) * A) * (cpt + 24) + 3 * cpt + 26) + cpt + 26 := by
  have hcpt : cpt < 4244967296 := by have := S.hi; omega
  have hMp : (0 : ℚ) < M := by exact_mod_cast S.pos
  have hcp : (0 : ℚ) < cpt := by exact_mod_cast S.lo
  have hA0 : 0 < A := by linarith [S.one]
  have hF0 : 0 < (1 + 1 / (M : ℚ)) * A := by positivity
  have hown : ∀ t ∈ wl.transfers, 0 < own fp dev t := fun t ht =>
    (mul_pos_iff_of_pos_left hcp).mp (lt_of_lt_of_le (by have := S.pos; positivity) (S.large t ht))
  rcases C160_estimated fp dev cpt ho wl s0 M A S hon s st h hc d ds g hm hg with ⟨i, t, x, ht, hrelt, hx, hle⟩ | hz
  swap
  · rw [hz]
    have : (0 : ℚ) ≤ 17 / 16 * ((1 + 1 / M) * A) * (cpt + 24) + 3 * cpt + 26 := by positivity
    push_cast
    positivity
  obtain ⟨s1, c1, h1, hrun, _, hs, _⟩ := runSingle_ok h
  obtain ⟨s2, c2, h2, hrun', _, hs', _⟩ := runSingle_ok h'
  have e1 : s1 = s0 := Out.ok.inj (h1.symm.trans S.init)
  have e2 : s2 = s0 := Out.ok.inj (h2.symm.trans S.init)
  subst e1
  subst e2
  have hr := C14_device_models fp dev true cpt wl.golden
  have hr' := C14_device_models fp dev false cpt wl.golden
  have hi0 := init_inv h1
  have hperm := (C14_all_delivered _ hr ho wl s c1 hrun).1
  have hmem : ∀ u ∈ s.ts, u.params ∈ wl.transfers := fun u hu => hperm.subset (List.mem_map.mpr ⟨u, hu, rfl⟩)
  have hlen : s.ts.length = wl.transfers.length := by
    have := hperm.length_eq
    rwa [List.length_map] at this
  obtain ⟨rank, hrank'⟩ := finished_rank h2 S.lo hcpt hrun'
  have hrank : ∀ a b e, WaitsFor s a b e → rank b < rank a := fun a b e hwait =>
    hrank' a b e ((hs.waitsFor_iff hr hi0 a b e).mp hwait)
  have hF : 1 ≤ 17 / 16 * ((1 + 1 / (M : ℚ)) * A) := by
    have h1 : 1 ≤ (1 + 1 / (M : ℚ)) := by
      have : 0 < 1 / (M : ℚ) := by positivity
      linarith
    have h2 := mul_le_mul h1 S.one (by norm_num) (by linarith)
    linarith
  obtain ⟨x', hx', hle'⟩ := chain_compare (f := slowTime fp dev cpt M A) (f' := leastTime fp dev cpt) (s := s)
    (F := 17 / 16 * ((1 + 1 / M) * A)) (K := 17 / 16 * ((1 + 1 / M) * A) * (cpt + 24) + 3 * cpt + 26) (o := g.1) hF (by positivity)
    rank hrank (fun u hu => by exact_mod_cast (hrel _ (hmem u hu)).2.1) (fun u hu => by
      unfold slowTime leastTime
      have hal : 0 ≤ aloneTime fp dev u := div_nonneg (Nat.cast_nonneg _) (hown _ (hmem u hu)).le
      generalize aloneTime fp dev u = a at hal ⊢
      have hex : (extraCredit cpt u : ℚ) ≤ cpt := by
        unfold extraCredit
        split <;> push_cast <;> linarith
      generalize (extraCredit cpt u : ℚ) = ec at hex ⊢
      generalize (1 + 1 / (M : ℚ)) * A = B at hF0 ⊢
      have h1 : 33 / 32 * a ≤ 17 / 16 * (a / (1 + 1 / 16777216) ^ 2) := by
        rw [mul_div_assoc', le_div_iff₀ (by norm_num)]
        linarith
      have h2 : 33 / 32 * a ≤ 17 / 16 * (a / (1 + 1 / 16777216) ^ 2 - 24 - ec + (cpt + 24)) := by linarith
      have h3 := mul_le_mul_of_nonneg_left h2 hF0.le
      linarith) hx
  have hx'' : ChainTime (leastTime fp dev cpt) s' i x' := by
    refine chain_same ((hs.stat hr hi0).trans (hs'.stat hr' hi0).symm) (fun u u' e => ?_) (fun a b e hwait => ?_) hx'
    · have hp : u.params = u'.params := congrArg (·.1) e
      have hdep : u.dependsOn = u'.dependsOn := congrArg (·.2.2.1) e
      unfold leastTime aloneTime extraCredit
      rw [hp, hdep]
    · exact (hs'.waitsFor_iff hr' hi0 a b e).mpr ((hs.waitsFor_iff hr hi0 a b e).mp hwait)
  obtain ⟨t', ht', est⟩ := map_stat_get ((hs.stat hr hi0).trans (hs'.stat hr' hi0).symm) ht
  have hpt : t.params = t'.params := congrArg (·.1) est
  have hlow := C157_estimated_partial fp dev S.device S.table cpt S.lo S.hi false ho hb wl
    (fun u hu => ⟨hsize u hu, ⟨(S.rate u hu).1, S.rep u hu⟩, hown u hu⟩) hon s' st' h' d ds' g hm' hg i t' ht'
    (by rw [← hpt]; exact hrelt) x' hx''
  have h3 : 17 / 16 * ((1 + 1 / (M : ℚ)) * A) * (x' - g.1) ≤ 17 / 16 * ((1 + 1 / M) * A) * ds'.estimated :=
    mul_le_mul_of_nonneg_left (by linarith) (by positivity)
  rw [hlen] at hle'
  linarith

/-! ### Example -/

/-- A test for `OverloadAt`. -/
def overloadTest (fp : FP) (dev : Device) (ts : List TState) (A : ℚ) : Bool :=
  let sum := fun w : TState → Nat => (ts.map fun u => (w u : ℚ) * own fp dev u.params).sum
  ts.all fun t => (t.route.all fun l => decide (sum (fun u => u.route.count l) ≤ A * dev.linkBw)) &&
    decide (sum (leaves dev t.params.noc t.params.src) ≤ A * t.params.injectionRate) &&
    match t.params.dst with
    | .unicast d =>
      match dev.getSinkAbsorptionRate d with
      | .ok a => decide (sum (reaches dev t.params.noc d) ≤ A * a)
      | _ => true
    | .mcast _ => true

theorem overload_of_test {fp : FP} {dev : Device} {s0 : Sim} {A : ℚ} (h : overloadTest fp dev s0.ts A = true) :
    OverloadAt fp dev s0 A := by
  intro t ht cap w hp
  unfold overloadTest at h
  have h1 := List.all_eq_true.mp h t ht
  simp only [Bool.and_eq_true, List.all_eq_true, decide_eq_true_eq] at h1
  obtain ⟨⟨h1, h2⟩, h3⟩ := h1
  cases hp with
  | link l hl => exact h1 l hl
  | source => exact h2
  | sink d a hd ha =>
    rw [hd] at h3
    simp only [ha, decide_eq_true_eq] at h3
    exact h3

/-- The two transfers that use a sink at its full rate overload it by a factor of two. -/
theorem bigPair_overloaded : Overloaded .exact Sample.dev 128 ⟨id, id⟩ bigPair bigState 1737 2 := by
  have hts : ∀ t ∈ bigPair.transfers, t.dst = .unicast ⟨0, 1, 1⟩ ∧ 0 ≤ t.injectionRate := by decide +kernel
  exact {
    device := ⟨by decide, by decide, by decide, by decide, fun _ => rfl⟩
    table := (C26_devices .exact "wormhole_b0" (wormhole .exact false 1) rfl).2
    lo := by decide
    hi := by decide
    rate := fun t ht => ⟨(hts t ht).2, fun gs hgs => by rw [(hts t ht).1] at hgs; cases hgs⟩
    rep := fun _ _ => rfl
    init := by decide +kernel
    one := by norm_num
    factor := by norm_num
    over := overload_of_test (by decide +kernel)
    few := few_of_test (by decide +kernel)
    pos := by decide
    large := by decide +kernel }

/-- The factor two cannot be smaller, and the estimates are 2333 with congestion and 1171 without. -/
example : overloadTest .exact Sample.dev bigState.ts (199 / 100) = false ∧
    bigEstimates true = some [(0, 2333), (-1, 2333)] ∧ bigEstimates false = some [(0, 1171), (-1, 1171)] ∧
    (17 / 16 * ((1 + 1 / 1737) * 2) * 1171 + 2 * (17 / 16 * ((1 + 1 / 1737) * 2) * (128 + 24) + 3 * 128 + 26) + 128 + 26 : ℚ) < 4113 := by
  decide +kernel

end NPE.Props
