import Verif.Proofs.Percent
import Mathlib.Data.Nat.ModEq

/-
The end of a simulation: estimated cycles, the records that are kept, and sums over devices.
-/

namespace NPE
open Spec

/-- What `finish` does to an entry. -/
def Finished (golden : GoldenMap) (cpt : Nat) (e e' : Int × DevStats) : Prop :=
  e'.1 = e.1 ∧ ∃ g, golden.at e.1 = .ok g ∧ e'.2.completed = true ∧ e'.2.estimated = e.2.worst - g.1 ∧
    e'.2.estimatedCongFree = e.2.estimatedCongFree ∧ e'.2.golden = toU32 ((g.2 : Int) - g.1) ∧
    e'.2.steps = if e.2.worst ≤ g.1 then [] else
      Stats.resize e.2.steps ((e.2.worst + cpt - 1) / cpt - g.1 / cpt + 1)

theorem finish_ok {golden : GoldenMap} {cpt : Nat} {st st' : Stats} (h : st.finish golden cpt = .ok st') :
    List.Forall₂ (Finished golden cpt) st st' := by
  unfold Stats.finish at h
  rw [Out.mapM_eq_ok] at h
  refine h.imp ?_
  intro e e' he
  unfold Stats.finishOne at he
  obtain ⟨g, hg, he⟩ := Out.bind_eq_ok.mp he
  simp only at he
  split at he
  · rename_i hw
    rw [← Out.ok.inj he]
    refine ⟨rfl, g, hg, rfl, ?_, rfl, rfl, ?_⟩
    · simp only; omega
    · rw [if_pos hw]
  · rename_i hw
    split at he
    · simp at he
    · rw [← Out.ok.inj he]
      refine ⟨rfl, g, hg, rfl, rfl, rfl, rfl, ?_⟩
      rw [if_neg hw]

/-! ### Records -/

theorem filter_range_ge (k0 n : Nat) : (List.range n).filter (fun (k : Nat) => decide (k0 ≤ k)) =
    List.range' k0 (n - k0) := by
  induction n with
  | zero => simp
  | succ n ih =>
    rw [List.range_succ, List.filter_append, ih]
    by_cases h : k0 ≤ n
    · have : n + 1 - k0 = (n - k0) + 1 := by omega
      rw [this, List.range'_concat]
      simp only [h, decide_true, List.filter_cons_of_pos, List.filter_nil]
      congr 2
      omega
    · have e1 : n + 1 - k0 = 0 := by omega
      have e2 : n - k0 = 0 := by omega
      simp [h, e1, e2]

/-- Index of the first interval that reaches `g`. -/
def firstIdx (cpt g : Nat) : Nat := if g = 0 then 0 else (g - 1) / cpt

theorem firstIdx_iff {cpt g k : Nat} (hpos : 0 < cpt) : g ≤ (k + 1) * cpt ↔ firstIdx cpt g ≤ k := by
  unfold firstIdx
  by_cases h : g = 0
  · simp [h]
  · rw [if_neg h]
    have h1 : (g - 1) / cpt < k + 1 ↔ g - 1 < (k + 1) * cpt := Nat.div_lt_iff_lt_mul hpos
    omega

theorem intervals_eq {cpt c g : Nat} (hpos : 0 < cpt) : intervals cpt c g =
    (List.range' (firstIdx cpt g) (c / cpt - firstIdx cpt g)).map fun (k : Nat) => (k * cpt, (k + 1) * cpt) := by
  unfold intervals
  rw [List.filter_map, ← filter_range_ge]
  congr 1
  apply List.filter_congr
  intro k _
  simp only [Function.comp, firstIdx_iff hpos]

theorem intervals_length {cpt c g : Nat} (hpos : 0 < cpt) :
    (intervals cpt c g).length = c / cpt - firstIdx cpt g := by
  rw [intervals_eq hpos, List.length_map, List.length_range']

/-- The intervals that begin before cycle `m` come first. -/
theorem intervals_before {cpt c g m : Nat} (hpos : 0 < cpt) :
    (intervals cpt c g).filter (fun i => decide (i.1 < m)) =
      (intervals cpt c g).take ((m + cpt - 1) / cpt - firstIdx cpt g) := by
  have hk : ∀ k : Nat, k * cpt < m ↔ k < (m + cpt - 1) / cpt := by
    intro k
    constructor
    · intro h
      rw [Nat.lt_div_iff_mul_lt hpos] at *
      have : cpt * k = k * cpt := Nat.mul_comm _ _
      omega
    · intro h
      have h1 : (k + 1) * cpt ≤ m + cpt - 1 := (Nat.le_div_iff_mul_le hpos).mp h
      rw [Nat.add_mul] at h1
      omega
  rw [intervals_eq hpos, List.filter_map, ← List.map_take]
  congr 1
  have : ((fun i : Nat × Nat => decide (i.1 < m)) ∘ fun (k : Nat) => (k * cpt, (k + 1) * cpt)) =
      fun (k : Nat) => decide (k < (m + cpt - 1) / cpt) := by
    funext k; simp only [Function.comp, hk]
  rw [this]
  generalize (m + cpt - 1) / cpt = e
  generalize firstIdx cpt g = k0
  generalize c / cpt - k0 = n
  induction n generalizing k0 with
  | zero => simp
  | succ n ih =>
    rw [List.range'_succ, List.filter_cons]
    by_cases h : k0 < e
    · rw [if_pos (by simpa using h), ih, show e - k0 = (e - (k0 + 1)) + 1 by omega, List.take_succ_cons]
    · rw [if_neg (by simpa using h), ih, show e - k0 = 0 by omega, show e - (k0 + 1) = 0 by omega]
      simp

theorem kept_count {cpt g m : Nat} (hpos : 0 < cpt) (h : g < m) :
    (m + cpt - 1) / cpt - g / cpt + 1 = ((m + cpt - 1) / cpt - firstIdx cpt g) +
      if cpt ∣ g ∧ 0 < g then 0 else 1 := by
  unfold firstIdx
  have h1 : g / cpt < (m + cpt - 1) / cpt := by
    have : g / cpt * cpt ≤ g := Nat.div_mul_le_self _ _
    rw [Nat.lt_div_iff_mul_lt hpos]
    have : cpt * (g / cpt) = g / cpt * cpt := Nat.mul_comm _ _
    omega
  rcases Nat.eq_zero_or_pos g with rfl | hg
  · simp
  · rw [if_neg (by omega)]
    have h2 : g / cpt = (g - 1) / cpt + if cpt ∣ g then 1 else 0 := by
      have := Nat.succ_div (a := g - 1) (b := cpt)
      rwa [Nat.sub_add_cancel hg] at this
    by_cases hd : cpt ∣ g
    · rw [if_pos hd] at h2
      rw [if_pos ⟨hd, hg⟩]; omega
    · rw [if_neg hd] at h2
      rw [if_neg (fun hc => hd hc.1)]; omega

/-! ### Sums over devices -/

theorem sum_devices {α : Type} (n : Nat) (L : List α) (dv : α → Int) (f : α → ℚ)
    (h : ∀ e ∈ L, 0 ≤ dv e ∧ dv e < n) :
    ((List.range n).map fun (d : Nat) => ((L.filter fun e => decide ((d : Int) = dv e)).map f).sum).sum =
      (L.map f).sum := by
  induction L with
  | nil => simp
  | cons e L ih =>
    have h1 := ih fun x hx => h x (by simp [hx])
    obtain ⟨h2, h3⟩ := h e (by simp)
    have : (fun (d : Nat) => (((e :: L).filter fun e => decide ((d : Int) = dv e)).map f).sum) =
        fun (d : Nat) => (if d = (dv e).toNat then f e else 0) +
          ((L.filter fun e => decide ((d : Int) = dv e)).map f).sum := by
      funext d
      rw [List.filter_cons]
      by_cases hd : (d : Int) = dv e
      · rw [if_pos (by simpa using hd), if_pos (by omega)]; simp
      · rw [if_neg (by simpa using hd), if_neg (by omega)]; simp
    rw [this, List.sum_map_add, sum_range_ite, if_pos (by omega), h1]
    simp

end NPE

namespace NPE
open Spec

theorem sized_rates {fp : FP} {dev : Device} {en : Bool} {a b : Nat}
    {g g' : Grids} {ts ts' : List TState} {live : List Nat} (hn : live.Nodup) (hg : Sized dev g)
    (h : computeRates fp dev en a b g ts live = .ok (ts', g')) : Sized dev g' := by
  unfold computeRates at h
  obtain ⟨ts1, h1, h⟩ := Out.bind_eq_ok.mp h
  cases en with
  | false =>
    simp only [Bool.false_eq_true, if_false, Out.ok.injEq, Prod.mk.injEq] at h
    rw [← h.2]; exact hg
  | true =>
    simp only [if_true] at h
    obtain ⟨_, ⟨l1, l2, l3, _⟩, _⟩ := modelCongestion_parts hn h
    have S := sized_init dev
    exact ⟨l1.trans S.1, l2.trans S.2.1, l3.trans S.2.2⟩

theorem init_onChips {fp : FP} {dev : Device} {ho : HashOrder} {wl : Workload} {s0 : Sim}
    (h0 : initSim fp dev ho wl = .ok s0) (hon : OnChips dev wl.transfers) :
    ∀ (i : Nat) t, s0.ts[i]? = some t → t.params.src.dev ∈ dev.deviceIDs := fun i t hi =>
  mem_deviceIDs.mpr (hon _ ((initSim_ok h0).1.slots i t hi).1)

/-- The statistics of a run of a device model. -/
theorem run_statsInv {fp : FP} {dev : Device} (hd : DeviceOk dev) {cpt : Nat} (hpos : 0 < cpt)
    {golden : GoldenMap} {en : Bool} {ho : HashOrder} {wl : Workload} (hon : OnChips dev wl.transfers)
    {s0 : Sim} (h0 : initSim fp dev ho wl = .ok s0) {c : Nat} {s : Sim}
    (hs : Reach (simConfig fp dev cpt golden en) s0 c s) :
    ∃ h, StatsInv (simConfig fp dev cpt golden en) h c s ∧ (∀ k, Sized dev (h k).1) ∧
      ∀ k, ∀ id ∈ (h k).2, id < s0.ts.length := by
  obtain ⟨h, h1, h2, _, h3⟩ := Spec.Reach.statsInv (cfg := simConfig fp dev cpt golden en)
    (computeRates_ok fp dev en) hd hpos h0 (init_onChips h0 hon) (Sized dev) (sized_init dev)
    (fun _ h => h) (fun _ _ _ _ _ _ _ _ hn _ hg h => sized_rates hn hg h) hs
  exact ⟨h, h1, h2, h3⟩

/-- The statistics of a run of a device model whose injection rates are not negative. -/
theorem run_statsInv_good {fp : FP} {dev : Device} (hd : DeviceOk dev) (hT : TableOk fp dev.tbt)
    {cpt : Nat} (hpos : 0 < cpt)
    {golden : GoldenMap} {en : Bool} {ho : HashOrder} {wl : Workload} (hon : OnChips dev wl.transfers)
    (hinj : ∀ t ∈ wl.transfers, 0 ≤ t.injectionRate)
    {s0 : Sim} (h0 : initSim fp dev ho wl = .ok s0) {c : Nat} {s : Sim}
    (hs : Reach (simConfig fp dev cpt golden en) s0 c s) :
    ∃ h, StatsInv (simConfig fp dev cpt golden en) h c s ∧ ∀ k, GoodGrids dev (h k).1 := by
  obtain ⟨h, h1, h2, _⟩ := Spec.Reach.statsInv (cfg := simConfig fp dev cpt golden en)
    (computeRates_ok fp dev en) hd hpos h0 (init_onChips h0 hon) (GoodGrids dev) (goodGrids_init dev)
    (fun _ h => h.sized) (fun a b g ts live ts' g' hab hn hts hg h => by
      refine goodGrids_rates hT hab hn ?_ hg h
      intro i t hi
      obtain ⟨t0, b1, b2, _⟩ := hts i t hi
      rw [← b2]
      exact hinj _ ((initSim_ok h0).1.slots i t0 b1).1) hs
  exact ⟨h, h1, h2⟩

/-- The parts of a run that returns statistics. -/
theorem runSingle_ok {fp : FP} {dev : Device} {ho : HashOrder} {cpt : Nat} {en : Bool} {wl : Workload}
    {s : Sim} {st : Stats} (h : runSingle fp dev ho cpt en wl = .ok (.inl (s, st))) :
    ∃ s0 c, initSim fp dev ho wl = .ok s0 ∧
      runLoop (simConfig fp dev cpt wl.golden en) ho wl = .ok (.finished s c) ∧ cpt ≤ c ∧
      Reach (simConfig fp dev cpt wl.golden en) s0 c s ∧
      s.live = [] ∧ s.queue = [] ∧ s.stats.finish wl.golden cpt = .ok st := by
  unfold runSingle at h
  obtain ⟨e, h1, h⟩ := Out.bind_eq_ok.mp h
  have h1' := h1
  unfold runLoop at h1
  obtain ⟨s0, h0, h1⟩ := Out.bind_eq_ok.mp h1
  cases e with
  | limit s' c' => simp at h
  | finished s' c' =>
    simp only at h
    obtain ⟨st', h2, h⟩ := Out.bind_eq_ok.mp h
    simp only [Out.pure_eq, Out.ok.injEq, Sum.inl.injEq, Prod.mk.injEq] at h
    rcases simLoop_reach (s0 := s0) simFuel 0 s0 _ Reach.start (Or.inl rfl) (by rwa [Nat.zero_add]) with
      ⟨a, b, e1, e2, e3, e4, e5⟩ | ⟨a, b, e1, _⟩
    · injection e1 with e6 e7
      subst e6 e7
      rw [← h.1, ← h.2]
      exact ⟨s0, c', h0, h1', by simpa [simConfig] using e5, e2, e3, e4, h2⟩
    · simp at e1

theorem linksOf_dev {dev : Device} {g : Grids} (h : Sized dev g) (e : LinkEntry) (he : e ∈ linksOf dev g) :
    0 ≤ e.1.coord.dev ∧ e.1.coord.dev < dev.chips := by
  have h1 : e.1 ∈ dev.linkTable := by
    rw [← linksOf_fst h]; exact List.mem_map_of_mem he
  obtain ⟨k, hk⟩ := List.mem_iff_getElem?.mp h1
  exact ((dev.linkTable_get k e.1).mp hk).1.1

theorem niusOf_dev {dev : Device} {g : Grids} (e : NIUAttr × ℚ) (he : e ∈ niusOf dev g) :
    0 ≤ e.1.coord.dev ∧ e.1.coord.dev < dev.chips := by
  have h1 : e.1 ∈ dev.niuTable := (List.of_mem_zip he).1
  obtain ⟨k, hk⟩ := List.mem_iff_getElem?.mp h1
  exact ((dev.niuTable_get k e.1).mp hk).1.1

theorem counted_chip (d : Nat) (c : Coord) : Stats.counted d c = decide ((d : Int) = c.dev) := by
  unfold Stats.counted MESH_DEVICE
  have : ¬ ((d : Int) = -1) := by omega
  simp [this]

theorem counted_mesh (c : Coord) : Stats.counted MESH_DEVICE c = true := by
  simp [Stats.counted]

theorem sum_links {dev : Device} {g : Grids} (h : Sized dev g) (f : LinkEntry → ℚ) :
    ((List.range dev.chips).map fun (d : Nat) =>
      (((linksOf dev g).filter fun e => Stats.counted d e.1.coord).map f).sum).sum =
      (((linksOf dev g).filter fun e => Stats.counted MESH_DEVICE e.1.coord).map f).sum := by
  simp only [counted_chip, counted_mesh, List.filter_true]
  exact sum_devices dev.chips (linksOf dev g) (fun e => e.1.coord.dev) f (linksOf_dev h)

theorem sum_nius {dev : Device} {g : Grids} (f : NIUAttr × ℚ → ℚ) :
    ((List.range dev.chips).map fun (d : Nat) =>
      (((niusOf dev g).filter fun e => Stats.counted d e.1.coord).map f).sum).sum =
      (((niusOf dev g).filter fun e => Stats.counted MESH_DEVICE e.1.coord).map f).sum := by
  simp only [counted_chip, counted_mesh, List.filter_true]
  exact sum_devices dev.chips (niusOf dev g) (fun e => e.1.coord.dev) f niusOf_dev

theorem sum_map_mul_right' {α : Type} (l : List α) (f : α → ℚ) (k : ℚ) :
    (l.map fun a => f a * k).sum = (l.map f).sum * k := by
  induction l with
  | nil => simp
  | cons a l ih => simp only [List.map_cons, List.sum_cons, ih]; ring

/-- Sums over the chips of the averages of a timestep. -/
theorem summarize_chips {dev : Device} (hd : DeviceOk dev) {g : Grids} (hg : Sized dev g)
    (live : List Nat) (a b : Nat) :
    let r (d : Int) := Stats.summarize dev (linksOf dev g) (niusOf dev g) g live d { startc := a, endc := b }
    ((List.range dev.chips).map fun (d : Nat) => (r d).avgLinkDemand).sum =
      dev.chips * (r MESH_DEVICE).avgLinkDemand ∧
    ((List.range dev.chips).map fun (d : Nat) => (r d).avgLinkUtil).sum =
      dev.chips * (r MESH_DEVICE).avgLinkUtil ∧
    ((List.range dev.chips).map fun (d : Nat) => (r d).avgMcastUtil).sum =
      dev.chips * (r MESH_DEVICE).avgMcastUtil ∧
    ((List.range dev.chips).map fun (d : Nat) => (r d).avgNiuDemand).sum =
      (r MESH_DEVICE).avgNiuDemand := by
  intro r
  have hch : (dev.chips : ℚ) ≠ 0 := by
    have := hd.chips_pos
    exact_mod_cast (by omega : dev.chips ≠ 0)
  have hlen : g.link.length = dev.chips * (dev.rows * (dev.cols * 4)) := by
    rw [hg.2.1, dev.linkTable_length]; rfl
  have hdiv : g.link.length / dev.chips = dev.rows * (dev.cols * 4) := by
    rw [hlen, Nat.mul_div_cancel_left _ hd.chips_pos]
  have hm : ∀ d : Nat, ¬ ((d : Int) = MESH_DEVICE) := by
    intro d; unfold MESH_DEVICE; omega
  have scale : ∀ x : ℚ, x * (100 / (dev.linkBw * (dev.rows * (dev.cols * 4) : Nat))) =
      dev.chips * (x * (100 / (dev.linkBw * (dev.chips * (dev.rows * (dev.cols * 4)) : Nat)))) := by
    intro x
    rw [Nat.cast_mul dev.chips]
    generalize ((dev.rows * (dev.cols * 4) : Nat) : ℚ) = q
    generalize dev.linkBw = w
    rcases eq_or_ne q 0 with rfl | hq
    · simp
    · rcases eq_or_ne w 0 with rfl | hw
      · simp
      · field_simp
  refine ⟨?_, ?_, ?_, ?_⟩
  · simp only [r, Stats.summarize, zero_add, hm, if_false, hdiv]
    rw [sum_map_mul_right', sum_links hg, if_pos trivial, hlen, scale]
  · simp only [r, Stats.summarize, zero_add, hm, if_false, hdiv]
    rw [sum_map_mul_right', sum_links hg, if_pos trivial, hlen, scale]
  · simp only [r, Stats.summarize, zero_add, hm, if_false, hdiv]
    rw [sum_map_mul_right', sum_links hg, if_pos trivial, hlen, scale]
  · simp only [r, Stats.summarize, zero_add]
    rw [sum_map_mul_right', sum_nius]

end NPE
