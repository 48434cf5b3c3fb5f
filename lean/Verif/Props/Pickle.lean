import Verif.Spec.Pickle
import Verif.Props.Summary

/-
C56: pickled statistics.
-/

namespace NPE.Props

open Spec Out

theorem bmod_short {n : Int} (h : Short n) : n.bmod 65536 = n := by
  unfold Short at h
  rw [Int.bmod_def]
  split <;> omega

theorem setEth_new (m : List (Coord × Dbl)) (c : Coord) (v : Dbl) (h : c ∉ m.map (·.1)) :
    PyStats.setEth m c v = m ++ [(c, v)] := by
  induction m with
  | nil => rfl
  | cons e m ih =>
    simp only [List.map_cons, List.mem_cons, not_or] at h
    unfold PyStats.setEth
    rw [if_neg (fun he => h.1 he.symm), ih h.2, List.cons_append]

theorem castInt_short {n : Int} (h : Short n) : Py.castInt (.int n) = .ok n := by
  unfold Short at h
  show (if _ then _ else _) = _
  rw [if_pos (by omega)]

theorem castSize_size {n : Nat} (h : Size n) : Py.castSize (.int n) = .ok n := by
  unfold Size at h
  simp only [Py.castSize]
  rw [if_pos (by omega), Int.toNat_natCast]

theorem ethLoad_item {fp : FP} {m : List (Coord × Dbl)} {e : Coord × Dbl}
    (h : Short e.1.dev ∧ Short e.1.row ∧ Short e.1.col) (hn : e.1 ∉ m.map (·.1)) :
    PyStats.ethLoad fp m (PyStats.ethItem e) = .ok (m ++ [e]) := by
  show ((Py.castInt (.int e.1.dev)) >>= fun d => (Py.castInt (.int e.1.row)) >>= fun r =>
    (Py.castInt (.int e.1.col)) >>= fun c => Out.ok (PyStats.setEth m ⟨d.bmod 65536, r.bmod 65536, c.bmod 65536⟩ e.2)) = _
  rw [castInt_short h.1, bind_ok, castInt_short h.2.1, bind_ok, castInt_short h.2.2, bind_ok,
    bmod_short h.1, bmod_short h.2.1, bmod_short h.2.2]
  rw [setEth_new m e.1 e.2 hn]

theorem ethLoad_all {fp : FP} (l m : List (Coord × Dbl)) (hn : ((m ++ l).map (·.1)).Nodup)
    (hs : ∀ e ∈ l, Short e.1.dev ∧ Short e.1.row ∧ Short e.1.col) :
    Out.foldlM (PyStats.ethLoad fp) m (l.map PyStats.ethItem) = .ok (m ++ l) := by
  induction l generalizing m with
  | nil => rw [List.append_nil]; rfl
  | cons e l ih =>
    have hne : e.1 ∉ m.map (·.1) := by
      intro hc
      rw [List.map_append, List.nodup_append] at hn
      exact hn.2.2 _ hc _ (List.mem_map_of_mem List.mem_cons_self) rfl
    rw [List.map_cons, foldlM_cons, ethLoad_item (hs e List.mem_cons_self) hne, bind_ok,
      ih (m ++ [e]) (by rwa [List.append_assoc, List.singleton_append]) (fun x hx => hs x (List.mem_cons_of_mem _ hx)),
      List.append_assoc, List.singleton_append]

theorem item_zero (x : Py) (t : List Py) : Py.item (x :: t) 0 = .ok x := rfl

theorem item_succ (x : Py) (t : List Py) (i : Nat) : Py.item (x :: t) (i + 1) = Py.item t i := rfl

theorem loadCounters_ok (fp : FP) (s : PyStats) (h : Storable s) (x : PyStats) :
    PyStats.loadCounters fp s.pickle x = .ok
      { x with completed := s.completed, estimatedCycles := s.estimatedCycles,
               estimatedCongFreeCycles := s.estimatedCongFreeCycles, goldenCycles := s.goldenCycles,
               cyclePredictionError := s.cyclePredictionError, wallclockRuntimeUs := s.wallclockRuntimeUs } := by
  have i0 : Py.item s.pickle 0 = .ok (.bool s.completed) := rfl
  have i1 : Py.item s.pickle 1 = .ok (.int s.estimatedCycles) := rfl
  have i2 : Py.item s.pickle 2 = .ok (.int s.estimatedCongFreeCycles) := rfl
  have i3 : Py.item s.pickle 3 = .ok (.int s.goldenCycles) := rfl
  have i4 : Py.item s.pickle 4 = .ok (.float s.cyclePredictionError) := rfl
  have i5 : Py.item s.pickle 5 = .ok (.int s.wallclockRuntimeUs) := rfl
  unfold PyStats.loadCounters
  rw [i0, i1, i2, i3, i4, i5, bind_ok, bind_ok, bind_ok, bind_ok, bind_ok, bind_ok, castSize_size h.estimated,
    castSize_size h.congFree, castSize_size h.golden, castSize_size h.wall]
  rfl

theorem loadOverall_ok (fp : FP) (s x : PyStats) :
    PyStats.loadOverall fp s.pickle x = .ok
      { x with avgLinkDemand := s.avgLinkDemand, maxLinkDemand := s.maxLinkDemand, avgNiuDemand := s.avgNiuDemand,
               maxNiuDemand := s.maxNiuDemand, avgLinkUtil := s.avgLinkUtil, maxLinkUtil := s.maxLinkUtil } := by
  simp only [PyStats.loadOverall, PyStats.pickle, item_succ, item_zero, bind_ok, Py.castDouble]

theorem loadNocs_ok (fp : FP) (s x : PyStats) :
    PyStats.loadNocs fp s.pickle x = .ok
      { x with avgNoc0Demand := s.avgNoc0Demand, avgNoc0Util := s.avgNoc0Util, maxNoc0Demand := s.maxNoc0Demand,
               avgNoc1Demand := s.avgNoc1Demand, avgNoc1Util := s.avgNoc1Util, maxNoc1Demand := s.maxNoc1Demand } := by
  simp only [PyStats.loadNocs, PyStats.pickle, item_succ, item_zero, bind_ok, Py.castDouble]

theorem loadRest_ok (fp : FP) (s : PyStats) (h : Storable s) (x : PyStats) :
    PyStats.loadRest fp s.pickle x = .ok
      { x with avgMcastUtil := s.avgMcastUtil, dramUtil := s.dramUtil, dramUtilSim := s.dramUtilSim,
               ethUtil := s.ethUtil } := by
  simp only [PyStats.loadRest, PyStats.pickle, item_succ, item_zero, bind_ok, Py.castDouble, Py.castList]
  rw [ethLoad_all s.ethUtil [] h.keys h.cores, bind_ok, List.nil_append]

/-- C56.  Reading a pickled statistics object gives back the object, in every field. -/
theorem C56_device (fp : FP) (s : PyStats) (h : Storable s) : PyStats.unpickle fp s.pickle = .ok s := by
  have hl : s.pickle.length = 22 := rfl
  unfold PyStats.unpickle
  rw [if_neg (fun hne => hne hl), loadCounters_ok fp s h, bind_ok, loadOverall_ok, bind_ok, loadNocs_ok, bind_ok,
    loadRest_ok fp s h]

/-- C56.  Every attribute, the ethernet table and the derived figure are preserved. -/
theorem C56_attributes (fp : FP) (s : PyStats) (h : Storable s) :
    ∃ s', PyStats.unpickle fp s.pickle = .ok s' ∧ (∀ n, getAttr s' n = getAttr s n) ∧ s'.ethUtil = s.ethUtil ∧
      s'.aggregateEth = s.aggregateEth :=
  ⟨s, C56_device fp s h, fun _ => rfl, rfl, rfl⟩

/-- C56.  Reading pickled statistics of all devices gives back the statistics of all devices. -/
theorem C56_report (fp : FP) (r : List (Int × PyStats)) (h : ∀ e ∈ r, Short e.1 ∧ Storable e.2) :
    unpickleReport fp (pickleReport r) = .ok r := by
  unfold unpickleReport pickleReport
  rw [mapM_eq_ok]
  induction r with
  | nil => exact .nil
  | cons e r ih =>
    refine .cons ?_ (ih fun x hx => h x (List.mem_cons_of_mem _ hx))
    have he := h e List.mem_cons_self
    unfold Short at he
    show (if _ then _ else _) = _
    rw [if_pos he.1]
    show (PyStats.unpickle fp e.2.pickle >>= _) = _
    rw [C56_device fp e.2 he.2, bind_ok]

/-- C56.  The reports of simulations can be stored: for workloads on the grid of a device of usual size, the counters
are the only condition. -/
theorem C56_run {dev : Device} {wl : Workload} {st : Stats} {rep : Report}
    (hg : EndsOnGrid dev wl.transfers) (hrows : dev.rows ≤ 32768) (hcols : dev.cols ≤ 32768)
    (hd : ∀ t ∈ wl.transfers, ∀ e, t.dst = .unicast e → Short e.dev)
    (h : st.report dev wl = .ok rep) {d : Int} {r : DevReport} (hr : (d, r) ∈ rep)
    (h1 : Size r.stats.estimated) (h2 : Size r.stats.estimatedCongFree) (h3 : Size r.stats.golden)
    {wall : Nat} (h4 : Size wall) (fp : FP) :
    PyStats.unpickle fp (r.visible wall).pickle = .ok (r.visible wall) := by
  apply C56_device
  have h' := report_mem h hr
  unfold computeSummary at h'
  simp only at h'
  obtain ⟨bs, hb, h'⟩ := bind_eq_ok.mp h'
  obtain ⟨eth, he, h'⟩ := bind_eq_ok.mp h'
  have h' := Out.ok.inj h'
  have hi := eth_table hg he
  have hkeys : (r.visible wall).ethUtil.map (·.1) = eth.map (·.1) := by
    show r.summary.ethUtil.map (·.1) = _
    rw [← h', List.map_map]
    rfl
  refine ⟨h1, h2, h3, h4, hkeys ▸ hi.nodup, ?_⟩
  intro e hem
  have hc : e.1 ∈ eth.map (·.1) := hkeys ▸ List.mem_map_of_mem hem
  obtain ⟨hcore, t, ht, _, hdst⟩ := (hi.cores e.1).mp hc
  have hgrid := (hg t ht).2 e.1 hdst
  unfold OnGrid at hgrid
  unfold Short
  exact ⟨hd t ht e.1 hdst, by omega, by omega⟩

theorem setEth_keys (m : List (Coord × Dbl)) (c : Coord) (v : Dbl) (x : Coord) :
    x ∈ (PyStats.setEth m c v).map (·.1) ↔ x = c ∨ x ∈ m.map (·.1) := by
  induction m with
  | nil => simp [PyStats.setEth]
  | cons e m ih =>
    unfold PyStats.setEth
    split
    · rename_i he
      simp only [List.map_cons, List.mem_cons, he]
      tauto
    · simp only [List.map_cons, List.mem_cons, ih]
      tauto

theorem setEth_nodup (m : List (Coord × Dbl)) (c : Coord) (v : Dbl) (h : (m.map (·.1)).Nodup) :
    ((PyStats.setEth m c v).map (·.1)).Nodup := by
  induction m with
  | nil => simp [PyStats.setEth]
  | cons e m ih =>
    rw [List.map_cons, List.nodup_cons] at h
    unfold PyStats.setEth
    split
    · rename_i he
      rw [List.map_cons, List.nodup_cons, ← he]
      exact h
    · rename_i he
      rw [List.map_cons, List.nodup_cons, setEth_keys]
      exact ⟨fun hx => hx.elim he h.1, ih h.2⟩

theorem setEth_lookup (m : List (Coord × Dbl)) (c : Coord) (v : Dbl) (x : Coord) :
    (PyStats.setEth m c v).lookup x = if x = c then some v else m.lookup x := by
  induction m with
  | nil =>
    unfold PyStats.setEth
    by_cases hx : x = c
    · rw [if_pos hx, List.lookup_cons, hx]; simp
    · rw [if_neg hx, List.lookup_cons, beq_false_of_ne hx]
  | cons e m ih =>
    unfold PyStats.setEth
    by_cases he : e.1 = c
    · rw [if_pos he]
      by_cases hx : x = c
      · rw [if_pos hx, List.lookup_cons, hx]; simp
      · rw [if_neg hx, List.lookup_cons, List.lookup_cons, beq_false_of_ne hx, beq_false_of_ne (he ▸ hx)]
    · rw [if_neg he, List.lookup_cons, List.lookup_cons]
      by_cases hx : x = c
      · rw [if_pos hx, beq_false_of_ne (fun h : x = e.1 => he (h.symm.trans hx))]
        exact ih.trans (if_pos hx)
      · rw [if_neg hx]
        rw [if_neg hx] at ih
        rw [ih]

/-- C56.  A state may name a core more than once: the table that is read has one entry for each core named, with the
value that stands last. -/
theorem C56_repeated (fp : FP) (l : List (Coord × Dbl)) (hs : ∀ e ∈ l, Short e.1.dev ∧ Short e.1.row ∧ Short e.1.col) :
    ∃ m, Out.foldlM (PyStats.ethLoad fp) [] (l.map PyStats.ethItem) = .ok m ∧ (m.map (·.1)).Nodup ∧
      ∀ c, m.lookup c = l.reverse.lookup c := by
  induction l using List.reverseRecOn with
  | nil => exact ⟨[], rfl, List.nodup_nil, fun _ => rfl⟩
  | append_singleton l e ih =>
    obtain ⟨m, hm, hn, hlook⟩ := ih fun x hx => hs x (List.mem_append_left _ hx)
    have h := hs e (List.mem_append_right _ List.mem_cons_self)
    refine ⟨PyStats.setEth m e.1 e.2, ?_, setEth_nodup m e.1 e.2 hn, ?_⟩
    · rw [List.map_append, Out.foldlM_append, hm, bind_ok, List.map_cons, List.map_nil, foldlM_cons]
      have : PyStats.ethLoad fp m (PyStats.ethItem e) = .ok (PyStats.setEth m e.1 e.2) := by
        show ((Py.castInt (.int e.1.dev)) >>= fun d => (Py.castInt (.int e.1.row)) >>= fun r =>
          (Py.castInt (.int e.1.col)) >>= fun c =>
            Out.ok (PyStats.setEth m ⟨d.bmod 65536, r.bmod 65536, c.bmod 65536⟩ e.2)) = _
        rw [castInt_short h.1, bind_ok, castInt_short h.2.1, bind_ok, castInt_short h.2.2, bind_ok,
          bmod_short h.1, bmod_short h.2.1, bmod_short h.2.2]
      rw [this, bind_ok]; rfl
    · intro c
      rw [setEth_lookup, List.reverse_append, List.reverse_singleton, List.singleton_append, List.lookup_cons, hlook]
      by_cases hc : c = e.1
      · rw [if_pos hc, hc]; simp
      · rw [if_neg hc, beq_false_of_ne hc]

example : (match Out.foldlM (PyStats.ethLoad .exact) []
      ([(⟨0, 0, 9⟩, .num 1), (⟨0, 0, 2⟩, .num 2), (⟨0, 0, 9⟩, .num 3)].map PyStats.ethItem) with
    | .ok m => m | _ => []) = [(⟨0, 0, 9⟩, .num 3), (⟨0, 0, 2⟩, .num 2)] := by
  decide +kernel

/-- C56.  A state of another size is refused. -/
theorem C56_refused (fp : FP) (t : List Py) (h : t.length ≠ 22) : PyStats.unpickle fp t = .std .runtimeError :=
  if_pos h

/-- Statistics with different values in all fields. -/
def sampleStats : PyStats where
  completed := true
  estimatedCycles := 1
  estimatedCongFreeCycles := 2
  goldenCycles := 3
  cyclePredictionError := .inf
  wallclockRuntimeUs := 5
  avgLinkDemand := .num 6
  maxLinkDemand := .num 7
  avgNiuDemand := .num 8
  maxNiuDemand := .num 9
  avgLinkUtil := .num 10
  maxLinkUtil := .num 11
  avgNoc0Demand := .num 12
  avgNoc0Util := .num 13
  maxNoc0Demand := .num 14
  avgNoc1Demand := .num 15
  avgNoc1Util := .num 16
  maxNoc1Demand := .num 17
  avgMcastUtil := .num 18
  dramUtil := .num 19
  dramUtilSim := .nan
  ethUtil := [(⟨0, 0, 9⟩, .num 21), (⟨1, 0, 1⟩, .num 22)]

example : Storable sampleStats :=
  ⟨by decide, by decide, by decide, by decide, by decide, by
    intro e he
    simp only [sampleStats, List.mem_cons, List.not_mem_nil, or_false] at he
    rcases he with rfl | rfl <;> (unfold Short; decide)⟩

/-- The fields arrive where they belong. -/
example : (match PyStats.unpickle .exact sampleStats.pickle with
    | .ok s => [getAttr s "overall_avg_link_util", getAttr s "overall_avg_niu_demand", getAttr s "dram_bw_util_sim"]
    | _ => []) = [some (.figure (.num 10)), some (.figure (.num 8)), some (.figure .nan)] := by
  decide +kernel

/-- A state with a `float` for a counter is refused. -/
example : (match PyStats.unpickle .exact (sampleStats.pickle.set 1 (.float (.num 1))) with
    | .std x => some x | _ => none) = some .castError := by
  decide +kernel

end NPE.Props
