import Verif.Proofs.Calm
import Verif.Props.Mono

/-
Property C154: a workload that overloads nothing is not slowed down by congestion.
-/

namespace NPE.Props
open NPE NPE.Spec NPE.Spec.Fluid

theorem describes_closed {job : Nat → Job} {s0 : Sim} (hd : Describes job s0) {i : Nat} (hi : i < s0.ts.length) {j d : Nat}
    (h : (job i).after = some (j, d)) : j < s0.ts.length := by
  obtain ⟨_, tj, _, _, h1, _⟩ := ((hd i _ (List.getElem?_eq_getElem hi)).2.2 j d).mp h
  exact (List.getElem?_eq_some_iff.mp h1).1

theorem passes_weight {dev : Device} {x : TState} {cap : ℚ} {w : TState → Nat} (h : Passes dev x cap w) :
    ∀ t u : TState, t.params = u.params → t.route = u.route → w t = w u := by
  intro t u h1 h2
  cases h with
  | link l _ => simp only [h2]
  | source => unfold leaves; rw [h1]
  | sink d a _ _ => unfold reaches; rw [h1]

/-- If the rounded loads in the states of the run without congestion are not beyond the capacities, congestion changes nothing. -/
theorem calm_run {fp : FP} {dev : Device} (hdev : DeviceOk dev) (hT : TableOk fp dev.tbt) {cpt : Nat} (hpos : 0 < cpt)
    (hcpt : cpt < 4244967296) {golden golden' : GoldenMap} {ho : HashOrder} {wl : Workload}
    (hw : ∀ t ∈ wl.transfers, 0 ≤ t.injectionRate ∧ RectsOk t) (hr : ∀ t ∈ wl.transfers, fp.f32.Rep t.injectionRate)
    {s0 : Sim} (h0 : initSim fp dev ho wl = .ok s0) {job : Nat → Job} (hd : Describes job s0)
    (hL : ∀ (k : Nat) (l : List Nat) (σ : Fluid.State), (k + 1) * cpt < 4294967296 → l.Nodup →
      (∀ i, i ∈ l ↔ i < s0.ts.length ∧ ∃ c m, σ i = .active c m) → Agree s0.ts.length id (during fp dev job cpt k) σ →
      ∀ i c m, i < s0.ts.length → during fp dev job cpt k i = .active c m → ∀ cap w, Passes dev ((job i).began c) cap w →
        loadIn fp dev job cpt l w ((k + 1) * cpt) σ ≤ cap)
    {s : Sim} {c : Nat} {e' : Ending} (h : runLoop (simConfig fp dev cpt golden false) ho wl = .ok (.finished s c))
    (h' : runLoop (simConfig fp dev cpt golden' true) ho wl = .ok e') :
    ∃ s', e' = .finished s' c ∧ s'.ts.map (fun t => (t.start, t.endc)) = s.ts.map (fun t => (t.start, t.endc)) := by
  have E1 : EndsAs s0.ts.length cpt (run fp.f32.fl job cpt (alone fp dev job)) (.finished s c) :=
    (C111_alone fp dev cpt hpos hcpt golden ho wl s0 h0 job hd).2 _ h
  obtain ⟨order, hO, E2⟩ := C111_shared fp dev hdev hT cpt hpos hcpt golden' ho wl hw s0 h0 job hd
  -- the second run until its end
  have hend : ∃ sx cx, Reach (simConfig fp dev cpt golden' true) s0 cx sx ∧
      cx = endClock e' ∧ cx ≤ 50000000 + cpt := by
    have h2 := h'
    unfold runLoop at h2
    obtain ⟨x0, hx, h2⟩ := Out.bind_eq_ok.mp h2
    have e0 : x0 = s0 := Out.ok.inj (hx.symm.trans h0)
    subst e0
    rcases simLoop_reach (cfg := simConfig fp dev cpt golden' true) (s0 := x0) simFuel 0 x0 _ .start (Or.inl rfl)
      (by rw [Nat.zero_add]; exact h2) with ⟨s', c', he, hs, _⟩ | ⟨s', c', he, hs, _⟩ <;>
    · subst he
      refine ⟨s', c', hs, rfl, ?_⟩
      cases hs with
      | start => omega
      | step _ hc _ =>
        have : (simConfig fp dev cpt golden' true).cpt = cpt := rfl
        rw [this]
        omega
  obtain ⟨sx, cx, hreach, hcx, hle⟩ := hend
  obtain ⟨kx, ekx, _, hord⟩ := hO cx sx hreach
  refine same_end E1 (finished_le h) (E2 e' h') ?_
  rw [← hcx]
  have key := run_congr (fl := fp.f32.fl) (job := job) (n := s0.ts.length) (cpt := cpt) (speed := alone fp dev job)
    (speed' := sharedIn fp dev job cpt order) (fun i hi j d => describes_closed hd hi) kx ?_
  · intro k hk
    refine key k ?_
    rw [ekx] at hk
    exact Nat.le_of_mul_le_mul_right hk hpos
  · intro k hk hA i hi c' m hc'
    obtain ⟨o1, o2⟩ := hord k hk
    have hkc : (k + 1) * cpt < 4294967296 := by
      have : (k + 1) * cpt ≤ kx * cpt := Nat.mul_le_mul_right _ (by omega)
      omega
    exact sharedIn_kept (c := c') (fun w => loadIn_nonneg (n := s0.ts.length) hT (fun i hi => (hw _ (describes_mem h0 hd hi)).1)
      (fun i hi => hr _ (describes_mem h0 hd hi)) fun j hj => ((o2 j).mp hj).1)
      (hL k _ _ hkc o1 o2 hA i c' m hi hc')

theorem agree_asked {fp : FP} {dev : Device} {job : Nat → Job} {n cpt curr : Nat} {w : TState → Nat} {σ σ' : Fluid.State}
    (h : Agree n id σ σ') : asked fp dev job n cpt w curr σ' = asked fp dev job n cpt w curr σ ∧ askers job n w σ' = askers job n w σ := by
  constructor <;>
  · first | unfold asked | unfold askers
    refine congrArg List.sum (List.map_congr_left fun j hj => ?_)
    have := h j (List.mem_range.mp hj)
    simp only [id] at this
    rw [this]

/-- C154 in exact arithmetic: if in no timestep of the run without congestion a link, source or sink that an active transfer
passes is asked for more than its capacity, the run with congestion is the same: it stops at the same clock, and every
transfer has the same start and end.  Transfers may wait for others. -/
theorem C154_exact (dev : Device) (hdev : DeviceOk dev) (hT : TableOk .exact dev.tbt) (cpt : Nat) (hpos : 0 < cpt)
    (hcpt : cpt < 4244967296) (golden golden' : GoldenMap) (ho : HashOrder) (wl : Workload)
    (hw : ∀ t ∈ wl.transfers, 0 ≤ t.injectionRate ∧ RectsOk t) (s0 : Sim) (h0 : initSim .exact dev ho wl = .ok s0)
    (job : Nat → Job) (hd : Describes job s0) (hcalm : Calm .exact dev job s0.ts.length cpt 0) (s : Sim) (c : Nat) (e' : Ending)
    (h : runLoop (simConfig .exact dev cpt golden false) ho wl = .ok (.finished s c))
    (h' : runLoop (simConfig .exact dev cpt golden' true) ho wl = .ok e') :
    ∃ s', e' = .finished s' c ∧ s'.ts.map (fun t => (t.start, t.endc)) = s.ts.map (fun t => (t.start, t.endc)) := by
  refine calm_run hdev hT hpos hcpt hw (fun _ _ => rfl) h0 hd ?_ h h'
  intro k l σ _ hl hm hA i c m hi hc cap w hp
  have h1 := hcalm k i c m hi hc cap w hp
  rw [add_zero, mul_one] at h1
  rw [loadIn_asked hl hm (fun j hj x y hx => by
      have h2 := hA j hj
      simp only [id] at h2
      rw [h2] at hx
      exact active_le k j x y hx) ?_ (passes_weight hp), (agree_asked hA).1]
  · exact h1
  · exact Nat.le_mul_of_pos_left _ (by omega)

/-- C154 for any rounding, if at most 65536 demands are added at every point and there is a part in 128 to spare. -/
theorem C154_rounded (fp : FP) (dev : Device) (hdev : DeviceOk dev) (hT : TableOk fp dev.tbt) (cpt : Nat) (hpos : 0 < cpt)
    (hcpt : cpt < 4244967296) (golden golden' : GoldenMap) (ho : HashOrder) (wl : Workload)
    (hw : ∀ t ∈ wl.transfers, 0 ≤ t.injectionRate ∧ RectsOk t) (hr : ∀ t ∈ wl.transfers, fp.f32.Rep t.injectionRate)
    (s0 : Sim) (h0 : initSim fp dev ho wl = .ok s0)
    (job : Nat → Job) (hd : Describes job s0) (hcalm : Calm fp dev job s0.ts.length cpt (1 / 128)) (hfew : Few fp dev job s0.ts.length cpt)
    (s : Sim) (c : Nat) (e' : Ending) (h : runLoop (simConfig fp dev cpt golden false) ho wl = .ok (.finished s c))
    (h' : runLoop (simConfig fp dev cpt golden' true) ho wl = .ok e') :
    ∃ s', e' = .finished s' c ∧ s'.ts.map (fun t => (t.start, t.endc)) = s.ts.map (fun t => (t.start, t.endc)) := by
  refine calm_run hdev hT hpos hcpt hw hr h0 hd ?_ h h'
  intro k l σ hlt hl hm hA i c m hi hc cap w hp
  have h1 := hcalm k i c m hi hc cap w hp
  have h2 := loadIn_close (fp := fp) (dev := dev) (cpt := cpt) (w := w)
    (fun i hi => (own_rep (dev := dev) hT (hw _ (describes_mem h0 hd hi)).1 (hr _ (describes_mem h0 hd hi))).1) hl hm
    (curr := (k + 1) * cpt) (fun j hj x y hx => by
      have h2 := hA j hj
      simp only [id] at h2
      rw [h2] at hx
      exact active_le k j x y hx) hpos (Nat.le_mul_of_pos_left _ (by omega)) hlt (passes_weight hp)
    (by rw [(agree_asked (fp := fp) (dev := dev) (cpt := cpt) (curr := 0) hA).2]; exact hfew k i c m hi hc cap w hp)
  rw [(agree_asked hA).1] at h2
  have := (abs_le.mp h2).2
  linarith

/-- A workload for all of whose transfers together there is capacity overloads nothing. -/
theorem calm_of_spacious {fp : FP} {dev : Device} (hT : TableOk fp dev.tbt) {cpt : Nat} {ho : HashOrder} {wl : Workload}
    (hw : ∀ t ∈ wl.transfers, 0 ≤ t.injectionRate) (hr : ∀ t ∈ wl.transfers, fp.f32.Rep t.injectionRate)
    {s0 : Sim} (h0 : initSim fp dev ho wl = .ok s0) {job : Nat → Job} (hd : Describes job s0) {margin : ℚ} (hm : 0 ≤ margin)
    (hsp : Spacious fp dev s0 margin) : Calm fp dev job s0.ts.length cpt margin := by
  intro k i c m hi hc cap w hp
  have hwt := passes_weight hp
  have hg : s0.ts[i]? = some s0.ts[i] := List.getElem?_eq_getElem hi
  have hp' : Passes dev s0.ts[i] cap w := by
    obtain ⟨e1, e2, _⟩ := hd i _ hg
    cases hp with
    | link l hl => exact .link l (by rw [← e2]; exact hl)
    | source =>
      have e : ((job i).began c).params = s0.ts[i].params := e1
      rw [e]
      exact .source
    | sink d a h1 h2 =>
      have e : ((job i).began c).params = s0.ts[i].params := e1
      rw [e] at h1 ⊢
      exact .sink d _ h1 h2
  refine le_trans (mul_le_mul_of_nonneg_right ?_ (by linarith)) (hsp _ (List.getElem_mem hi) cap w hp')
  have e : (s0.ts.map fun u => (w u : ℚ) * own fp dev u.params) =
      (List.range s0.ts.length).map fun j => (w ((job j).began 0) : ℚ) * own fp dev (job j).t := by
    refine List.ext_getElem? fun j => ?_
    rw [List.getElem?_map, List.getElem?_map]
    by_cases hj : j < s0.ts.length
    · rw [List.getElem?_eq_getElem hj, List.getElem?_range hj, Option.map_some, Option.map_some]
      obtain ⟨e1, e2, _⟩ := hd j _ (List.getElem?_eq_getElem hj)
      rw [hwt s0.ts[j] ((job j).began 0) e1.symm e2.symm, e1]
    · rw [List.getElem?_eq_none (by omega), List.getElem?_eq_none (by rw [List.length_range]; omega)]
      rfl
  rw [e]
  unfold asked
  refine List.sum_le_sum fun j hj => ?_
  have hj := List.mem_range.mp hj
  have ho := (own_rep (dev := dev) hT (hw _ (describes_mem h0 hd hj)) (hr _ (describes_mem h0 hd hj))).1
  have hnn : (0 : ℚ) ≤ (w ((job j).began 0) : ℚ) * own fp dev (job j).t := mul_nonneg (Nat.cast_nonneg _) ho
  cases hσ : during fp dev job cpt k j with
  | waiting => exact hnn
  | finished x y => exact hnn
  | active x y =>
    simp only
    rw [hwt ((job j).began x) ((job j).began 0) rfl rfl]
    refine mul_le_mul_of_nonneg_left (mul_le_of_le_one_left ho ?_) (Nat.cast_nonneg _)
    unfold share
    have hle : cpt ≤ (k + 1) * cpt := Nat.le_mul_of_pos_left _ (by omega)
    have h1 : ((((k + 1) * cpt : ℕ) : ℚ) - (((k + 1) * cpt - cpt : ℕ) : ℚ)) = cpt := by
      rw [Nat.cast_sub hle]; ring
    rw [h1]
    refine div_le_one_of_le₀ ?_ (Nat.cast_nonneg _)
    have h2 : (((k + 1) * cpt - cpt : ℕ) : ℚ) ≤ ((max ((k + 1) * cpt - cpt) ((job j).began x).start : ℕ) : ℚ) := by
      exact_mod_cast le_max_left _ _
    linarith

theorem few_of_users {fp : FP} {dev : Device} {cpt : Nat}
    {s0 : Sim} {job : Nat → Job} (hd : Describes job s0)
    (hsp : FewUsers dev s0) : Few fp dev job s0.ts.length cpt := by
  intro k i c m hi hc cap w hp
  have hwt := passes_weight hp
  have hg : s0.ts[i]? = some s0.ts[i] := List.getElem?_eq_getElem hi
  have hp' : Passes dev s0.ts[i] cap w := by
    obtain ⟨e1, e2, _⟩ := hd i _ hg
    cases hp with
    | link l hl => exact .link l (by rw [← e2]; exact hl)
    | source =>
      have e : ((job i).began c).params = s0.ts[i].params := e1
      rw [e]
      exact .source
    | sink d a h1 h2 =>
      have e : ((job i).began c).params = s0.ts[i].params := e1
      rw [e] at h1 ⊢
      exact .sink d _ h1 h2
  refine le_trans ?_ (hsp _ (List.getElem_mem hi) cap w hp')
  have e : (s0.ts.map w) = (List.range s0.ts.length).map fun j => w ((job j).began 0) := by
    refine List.ext_getElem? fun j => ?_
    rw [List.getElem?_map, List.getElem?_map]
    by_cases hj : j < s0.ts.length
    · rw [List.getElem?_eq_getElem hj, List.getElem?_range hj, Option.map_some, Option.map_some]
      obtain ⟨e1, e2, _⟩ := hd j _ (List.getElem?_eq_getElem hj)
      rw [hwt s0.ts[j] ((job j).began 0) e1.symm e2.symm]
    · rw [List.getElem?_eq_none (by omega), List.getElem?_eq_none (by rw [List.length_range]; omega)]
      rfl
  rw [e]
  unfold askers
  refine List.sum_le_sum fun j _ => ?_
  cases during fp dev job cpt k j with
  | waiting => exact Nat.zero_le _
  | finished x y => exact Nat.zero_le _
  | active x y =>
    simp only
    rw [hwt ((job j).began x) ((job j).began 0) rfl rfl]

theorem same_estimates {fp : FP} {dev : Device} (hdev : DeviceOk dev) {cpt : Nat}
    (hpos : 0 < cpt) {ho : HashOrder} {wl : Workload} (hon : OnChips dev wl.transfers)
    {s0 : Sim} (h0 : initSim fp dev ho wl = .ok s0) {en en' : Bool} {s s' : Sim} {st st' : Stats}
    (h : runSingle fp dev ho cpt en wl = .ok (.inl (s, st)))
    (h' : runSingle fp dev ho cpt en' wl = .ok (.inl (s', st')))
    (hmap : s'.ts.map (fun t => (t.start, t.endc)) = s.ts.map (fun t => (t.start, t.endc))) {d : Int} {ds ds' : DevStats}
    (hm : (d, ds) ∈ st) (hm' : (d, ds') ∈ st') : ds'.estimated = ds.estimated := by
  have key : ∀ (a b : Sim), b.ts.map (fun t => (t.start, t.endc)) = a.ts.map (fun t => (t.start, t.endc)) →
      ∀ (i : Nat) (t : TState), a.ts[i]? = some t → ∃ t', b.ts[i]? = some t' ∧ t'.start = t.start ∧ t.endc ≤ t'.endc := by
    intro a b hab i t ht
    have := congrArg (·[i]?) hab
    simp only [List.getElem?_map, ht, Option.map_some, Option.map_eq_some_iff] at this
    obtain ⟨t', h1, h2⟩ := this
    obtain ⟨h3, h4⟩ := Prod.mk.inj h2
    exact ⟨t', h1, h3, h4.ge⟩
  exact le_antisymm (estimates_le hdev hpos hon h0 h' h (key s' s hmap.symm) hm' hm)
    (estimates_le hdev hpos hon h0 h h' (key s s' hmap) hm hm')

/-- C154 for the reported estimates, in exact arithmetic: if there is capacity for all transfers of the workload at once at
every link, source and sink that they use, the estimates of the runs with and without congestion are the same. -/
theorem C154_estimated (dev : Device) (hdev : DeviceOk dev) (hT : TableOk .exact dev.tbt) (cpt : Nat)
    (hpos : 0 < cpt) (hcpt : cpt < 4244967296) (ho : HashOrder) (wl : Workload)
    (hw : ∀ t ∈ wl.transfers, 0 ≤ t.injectionRate ∧ RectsOk t) (hon : OnChips dev wl.transfers)
    (s0 : Sim) (h0 : initSim .exact dev ho wl = .ok s0) (hsp : Spacious .exact dev s0 0) (s s' : Sim) (st st' : Stats)
    (h : runSingle .exact dev ho cpt false wl = .ok (.inl (s, st)))
    (h' : runSingle .exact dev ho cpt true wl = .ok (.inl (s', st'))) (d : Int) (ds ds' : DevStats)
    (hm : (d, ds) ∈ st) (hm' : (d, ds') ∈ st') : ds'.estimated = ds.estimated := by
  obtain ⟨_, c, _, run1, _⟩ := runSingle_ok h
  obtain ⟨_, c', _, run2, _⟩ := runSingle_ok h'
  obtain ⟨job, hd⟩ := describes_exists h0
  obtain ⟨x, hx, hmap⟩ := C154_exact dev hdev hT cpt hpos hcpt wl.golden wl.golden ho wl hw s0 h0 job hd
    (calm_of_spacious hT (fun t ht => (hw t ht).1) (fun _ _ => rfl) h0 hd le_rfl hsp) s c _ run1 run2
  obtain ⟨rfl, rfl⟩ := Ending.finished.inj hx
  exact same_estimates hdev hpos hon h0 h h' hmap hm hm'

/-- The same with any rounding, with a part in 128 to spare and at most 65536 demands at every point. -/
theorem C154_estimated_rounded (fp : FP) (dev : Device) (hdev : DeviceOk dev) (hT : TableOk fp dev.tbt) (cpt : Nat)
    (hpos : 0 < cpt) (hcpt : cpt < 4244967296) (ho : HashOrder) (wl : Workload)
    (hw : ∀ t ∈ wl.transfers, 0 ≤ t.injectionRate ∧ RectsOk t) (hr : ∀ t ∈ wl.transfers, fp.f32.Rep t.injectionRate)
    (hon : OnChips dev wl.transfers)
    (s0 : Sim) (h0 : initSim fp dev ho wl = .ok s0) (hsp : Spacious fp dev s0 (1 / 128)) (hfew : FewUsers dev s0)
    (s s' : Sim) (st st' : Stats) (h : runSingle fp dev ho cpt false wl = .ok (.inl (s, st)))
    (h' : runSingle fp dev ho cpt true wl = .ok (.inl (s', st'))) (d : Int) (ds ds' : DevStats)
    (hm : (d, ds) ∈ st) (hm' : (d, ds') ∈ st') : ds'.estimated = ds.estimated := by
  obtain ⟨_, c, _, run1, _⟩ := runSingle_ok h
  obtain ⟨_, c', _, run2, _⟩ := runSingle_ok h'
  obtain ⟨job, hd⟩ := describes_exists h0
  obtain ⟨x, hx, hmap⟩ := C154_rounded fp dev hdev hT cpt hpos hcpt wl.golden wl.golden ho wl hw hr s0 h0 job hd
    (calm_of_spacious hT (fun t ht => (hw t ht).1) hr h0 hd (by norm_num) hsp) (few_of_users hd hfew) s c _ run1 run2
  obtain ⟨rfl, rfl⟩ := Ending.finished.inj hx
  exact same_estimates hdev hpos hon h0 h h' hmap hm hm'

/-! ### Example -/

/-- A test for `Spacious`. -/
def isSpacious (fp : FP) (dev : Device) (ts : List TState) (margin : ℚ) : Bool :=
  let sum := fun w : TState → Nat => (ts.map fun u => (w u : ℚ) * own fp dev u.params).sum * (1 + margin)
  ts.all fun t => (t.route.all fun l => decide (sum (fun u => u.route.count l) ≤ dev.linkBw)) &&
    decide (sum (leaves dev t.params.noc t.params.src) ≤ t.params.injectionRate) &&
    match t.params.dst with
    | .unicast d =>
      match dev.getSinkAbsorptionRate d with
      | .ok a => decide (sum (reaches dev t.params.noc d) ≤ a)
      | _ => true
    | .mcast _ => true

theorem spacious_of_test {fp : FP} {dev : Device} {s0 : Sim} {margin : ℚ} (h : isSpacious fp dev s0.ts margin = true) :
    Spacious fp dev s0 margin := by
  intro t ht cap w hp
  unfold isSpacious at h
  have h1 := List.all_eq_true.mp h t ht
  simp only [Bool.and_eq_true, List.all_eq_true, decide_eq_true_eq] at h1
  obtain ⟨⟨h1, h2⟩, h3⟩ := h1
  cases hp with
  | link l hl => exact h1 l hl
  | source => exact h2
  | sink d a hd ha =>
    rw [hd] at h3
    simp only [ha, decide_eq_true_eq] at h3
    exact h3

/-- Two transfers that share a link and a sink. -/
def calmPair : List Transfer := [Transfer.make 900 1 ⟨0, 0, 0⟩ (.unicast ⟨0, 1, 1⟩) 4 0 .noc0,
  Transfer.make 700 1 ⟨0, 0, 1⟩ (.unicast ⟨0, 1, 1⟩) 5 100 .noc0]

/-- Their initial state. -/
def calmState : Sim := match initSim .exact Sample.dev ⟨id, id⟩ (Sample.wl calmPair) with
  | .ok s => s
  | _ => ⟨[], [], [], [], initGrids Sample.dev, Stats.init Sample.dev⟩

/-- There is capacity for both, and the two runs are the same; with four times the rate there is not. -/
example : initSim .exact Sample.dev ⟨id, id⟩ (Sample.wl calmPair) = .ok calmState ∧ Spacious .exact Sample.dev calmState 0 ∧
    times Sample.dev ⟨id, id⟩ calmPair true = some (256, [(0, 225), (100, 240)]) ∧
    times Sample.dev ⟨id, id⟩ calmPair false = some (256, [(0, 225), (100, 240)]) ∧
    isSpacious .exact Sample.dev [fresh Sample.dev east, fresh Sample.dev south] 0 = false := by
  refine ⟨by decide +kernel, spacious_of_test (by decide +kernel), ?_, ?_, ?_⟩ <;> decide +kernel

end NPE.Props
