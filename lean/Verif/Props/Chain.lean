import Verif.Spec.Chain
import Verif.Props.Limit
import Verif.Props.Deps
import Mathlib.Data.Finset.Sort

/-
Property C157: no estimate is below the time of a chain of transfers that wait for each other.
-/

namespace NPE.Props
open NPE NPE.Spec NPE.Spec.Fluid

/-- What is left of the time that a transfer needs alone: rounding, and a timestep for transfers with a dependency. -/
def leastTime (fp : FP) (dev : Device) (cpt : Nat) (t : TState) : ℚ :=
  aloneTime fp dev t / (1 + 1 / 16777216) ^ 2 - 24 - extraCredit cpt t

/-- C157 as it would be natural, in exact arithmetic: the last transfer of a chain ends no earlier than the offset of the
first one, the delays and the times that the transfers need alone. -/
def C157_claim : Prop :=
  ∀ (dev : Device), DeviceOk dev → TableOk .exact dev.tbt → ∀ (cpt : Nat), 0 < cpt → cpt ≤ 25000000 →
    ∀ (en : Bool) (ho : HashOrder), (∀ l, (ho.buckets l).Perm l) → ∀ (wl : Workload),
    (∀ t ∈ wl.transfers, t.packetSize < 4294967296 ∧ SaneRate .exact t ∧ 0 < own .exact dev t) →
    ∀ (s : Sim) (c : Nat), runLoop (simConfig .exact dev cpt wl.golden en) ho wl = .ok (.finished s c) →
    ∀ (i : Nat) (t : TState), s.ts[i]? = some t → ∀ x, ChainTime (aloneTime .exact dev) s i x → x ≤ t.endc

theorem finished_reach {fp : FP} {dev : Device} {cpt : Nat} {golden : GoldenMap} {en : Bool} {ho : HashOrder} {wl : Workload}
    {s : Sim} {c : Nat} (h : runLoop (simConfig fp dev cpt golden en) ho wl = .ok (.finished s c)) :
    ∃ s0, initSim fp dev ho wl = .ok s0 ∧ Reach (simConfig fp dev cpt golden en) s0 c s := by
  have h2 := h
  unfold runLoop at h2
  obtain ⟨s0, h0, h2⟩ := Out.bind_eq_ok.mp h2
  refine ⟨s0, h0, ?_⟩
  rcases simLoop_reach (cfg := simConfig fp dev cpt golden en) (s0 := s0) simFuel 0 s0 _ .start (Or.inl rfl)
    (by rw [Nat.zero_add]; exact h2) with ⟨s', c', he, hs, _⟩ | ⟨s', c', he, hs, _⟩
  · obtain ⟨rfl, rfl⟩ := Ending.finished.inj he
    exact hs
  · cases he

/-- C157 for any rounding (missing: one timestep for every transfer with a dependency, see `C157_violated`, and 24 cycles for
rounding): at the end of every run, with and without congestion, the last transfer of a chain of waiting transfers ended no
earlier than the offset of the first one, the delays and the times that all transfers of the chain need. -/
theorem C157_partial (fp : FP) (dev : Device) (hT : TableOk fp dev.tbt) (cpt : Nat)
    (hcpt : cpt ≤ 25000000) (golden : GoldenMap) (en : Bool) (ho : HashOrder) (hb : ∀ l, (ho.buckets l).Perm l) (wl : Workload)
    (hw : ∀ t ∈ wl.transfers, t.packetSize < 4294967296 ∧ SaneRate fp t ∧ 0 < own fp dev t)
    (s : Sim) (c : Nat) (h : runLoop (simConfig fp dev cpt golden en) ho wl = .ok (.finished s c))
    (i : Nat) (t : TState) (ht : s.ts[i]? = some t) (x : ℚ) (hx : ChainTime (leastTime fp dev cpt) s i x) : x ≤ t.endc := by
  obtain ⟨s0, h0, hs⟩ := finished_reach h
  have hr := C14_device_models fp dev en cpt golden
  obtain ⟨hperm, hall⟩ := C14_all_delivered _ hr ho wl s c h
  have hlast : ∀ (i : Nat) (t : TState), s.ts[i]? = some t → (t.start : ℚ) + leastTime fp dev cpt t ≤ t.endc := by
    intro i t ht
    have hmem : t.params ∈ wl.transfers := hperm.subset (List.mem_map.mpr ⟨t, List.mem_of_getElem? ht, rfl⟩)
    obtain ⟨_, hrate, hown⟩ := hw _ hmem
    obtain ⟨a1, a2, a3, a4, a5⟩ := hall i t ht
    have b1 := ((C59_rounded_partial fp dev hT cpt hcpt golden en ho wl s0 h0 c s hs i t ht hrate).2 ⟨t, ht, a1, a4, a5⟩).1
    rw [a1] at b1
    have e : aloneBw fp dev t.params = own fp dev t.params := rfl
    rw [e] at b1
    unfold rounded at b1
    unfold leastTime aloneTime needed
    have h1 : ((t.params.totalBytes : ℚ) / own fp dev t.params) / (1 + 1 / 16777216) ^ 2 ≤ (t.endc : ℚ) - t.start + 24 + extraCredit cpt t := by
      rw [div_div, div_le_iff₀ (mul_pos hown (by norm_num))]
      linarith
    linarith
  induction hx generalizing t with
  | @first i t' ht' =>
    have e := Option.some.inj (ht'.symm.trans ht)
    subst e
    have h1 := hlast i t' ht
    have h2 : (t'.params.offset : ℚ) ≤ t'.start := by exact_mod_cast (hall i t' ht).2.1
    linarith
  | @next i j d t' y _ hwait ht' ih =>
    have e := Option.some.inj (ht'.symm.trans ht)
    subst e
    obtain ⟨_, tj, hj, hstart, _⟩ := C16_no_wrap (simConfig fp dev cpt golden en) hr (by show cpt ≤ _; omega) ho hb wl
      (fun t ht => (hw t ht).1) s0 h0 c s hs i t' ht (hall i t' ht).2.2.2.1 j d hwait
    have h1 := hlast i t' ht
    have h2 := ih tj hj
    have h3 : ((tj.endc + d : ℕ) : ℚ) ≤ t'.start := by
      rw [hstart]
      exact_mod_cast le_max_right _ _
    push_cast at h3
    linarith

/-- C157 for the reported figures: if the last transfer of the chain counts for a device, the estimate of the device is not
below the time of the chain. -/
theorem C157_estimated_partial (fp : FP) (dev : Device) (hd : DeviceOk dev) (hT : TableOk fp dev.tbt) (cpt : Nat) (hpos : 0 < cpt)
    (hcpt : cpt ≤ 25000000) (en : Bool) (ho : HashOrder) (hb : ∀ l, (ho.buckets l).Perm l) (wl : Workload)
    (hw : ∀ t ∈ wl.transfers, t.packetSize < 4294967296 ∧ SaneRate fp t ∧ 0 < own fp dev t) (hon : OnChips dev wl.transfers)
    (s : Sim) (st : Stats) (h : runSingle fp dev ho cpt en wl = .ok (.inl (s, st)))
    (d : Int) (ds : DevStats) (g : Nat × Nat) (hm : (d, ds) ∈ st) (hg : wl.golden.at d = .ok g)
    (i : Nat) (t : TState) (ht : s.ts[i]? = some t) (hrel : Relevant d g t.params) (x : ℚ)
    (hx : ChainTime (leastTime fp dev cpt) s i x) : x ≤ ds.estimated + g.1 := by
  obtain ⟨_, c, _, hrun, _⟩ := runSingle_ok h
  refine le_trans (C157_partial fp dev hT cpt hcpt wl.golden en ho hb wl hw s c hrun i t ht x hx) ?_
  obtain ⟨gs, ge, m, e1, e2, _, e4, e5, _⟩ := C35_estimated fp dev hd cpt hpos en ho wl hon s st h d ds hm
  rw [hg] at e1
  have e1 := Out.ok.inj e1
  subst e1
  have h1 := e2.1 t (List.mem_of_getElem? ht) hrel
  have h2 : t.endc ≤ ds.estimated + gs := by
    rcases le_total gs m with h3 | h3
    · have := e4 h3; omega
    · have := e5 h3; omega
  exact_mod_cast h2

/-! ### Issue queues -/

/-- Sums of every second value. -/
def everySecond (f : Nat → ℚ) : Nat → ℚ
  | 0 => f 0
  | 1 => f 1
  | k + 2 => everySecond f k + f (k + 2)

theorem everySecond_sum (f : Nat → ℚ) (m : Nat) :
    ((List.range (m + 2)).map f).sum = everySecond f (m + 1) + everySecond f m := by
  induction m with
  | zero => simp [List.range_succ, everySecond]; ring
  | succ m ih =>
    rw [List.range_succ, List.map_append, List.sum_append, ih]
    simp only [List.map_cons, List.map_nil, List.sum_cons, List.sum_nil, add_zero]
    rw [show everySecond f (m + 1 + 1) = everySecond f m + f (m + 2) from rfl]
    ring

/-- `l` lists the transfers of an issue queue in the order of the schedule. -/
structure Lane (dev : Device) (s : Sim) (l : List Nat) : Prop where
  sorted : l.Pairwise (Earlier s)
  mates : ∀ i ∈ l, ∀ j ∈ l, LaneMates (SameLane dev) s i j
  all : ∀ i ∈ l, ∀ k, LaneMates (SameLane dev) s k i → k ∈ l

theorem earlier_irrefl {s : Sim} {i : Nat} : ¬ Earlier s i i := by
  rintro ⟨a, b, h1, h2, h⟩
  have e := Option.some.inj (h1.symm.trans h2)
  subst e
  omega

theorem earlier_asymm {s : Sim} {i j : Nat} (h : Earlier s i j) : ¬ Earlier s j i := by
  obtain ⟨a, b, h1, h2, h⟩ := h
  rintro ⟨a', b', h1', h2', h'⟩
  have e1 := Option.some.inj (h1.symm.trans h2')
  have e2 := Option.some.inj (h2.symm.trans h1')
  subst e1 e2
  omega

/-- In the list of an issue queue, the transfer two places before is the one that `TwoBefore` names. -/
theorem Lane.twoBefore {dev : Device} {s : Sim} {l : List Nat} (H : Lane dev s l) {k : Nat} (hk : k + 2 < l.length) :
    TwoBefore (SameLane dev) s l[k] l[k + 2] := by
  have hlt := List.pairwise_iff_getElem.mp H.sorted
  refine ⟨H.mates _ (List.getElem_mem _) _ (List.getElem_mem _), hlt k (k + 2) (by omega) hk (by omega), l[k + 1],
    ⟨H.mates _ (List.getElem_mem _) _ (List.getElem_mem _), hlt k (k + 1) (by omega) (by omega) (by omega),
      hlt (k + 1) (k + 2) (by omega) hk (by omega)⟩, ?_⟩
  rintro y ⟨h1, h2, h3⟩
  obtain ⟨m, hm, rfl⟩ := List.getElem_of_mem (H.all _ (List.getElem_mem hk) y h1)
  have a1 : k < m := by
    by_contra hc
    rcases Nat.lt_or_ge m k with h | h
    · exact earlier_asymm h2 (hlt m k hm (by omega) h)
    · have : m = k := by omega
      subst this
      exact earlier_irrefl h2
  have a2 : m < k + 2 := by
    by_contra hc
    rcases Nat.lt_or_ge (k + 2) m with h | h
    · exact earlier_asymm h3 (hlt (k + 2) m hk hm h)
    · have : m = k + 2 := by omega
      subst this
      exact earlier_irrefl h3
  have : m = k + 1 := by omega
  subst this
  rfl

theorem firstLink_unique {dev : Device} {t : TState} {k k' : Option LinkType} (h : FirstLink dev t k) (h' : FirstLink dev t k') : k = k' := by
  unfold FirstLink at h h'
  cases hr : t.route with
  | nil =>
    rw [hr] at h h'
    exact h.trans (Eq.symm h')
  | cons l r =>
    rw [hr] at h h'
    obtain ⟨a, h1, rfl⟩ := h
    obtain ⟨b, h2, rfl⟩ := h'
    rw [Out.ok.inj (h1.symm.trans h2)]

theorem sameLane_trans {dev : Device} {t u v : TState} (h : SameLane dev t u) (h' : SameLane dev u v) : SameLane dev t v := by
  obtain ⟨a1, a2, a3, k, a4, a5⟩ := h
  obtain ⟨b1, b2, b3, k', b4, b5⟩ := h'
  have := firstLink_unique a5 b4
  subst this
  exact ⟨a1.trans b1, a2.trans b2, a3.trans b3, k, a4, b5⟩

theorem sameLane_symm {dev : Device} {t u : TState} (h : SameLane dev t u) : SameLane dev u t := by
  obtain ⟨a1, a2, a3, k, a4, a5⟩ := h
  exact ⟨a1.symm, a2.symm, a3.symm, k, a5, a4⟩

theorem laneMates_trans {dev : Device} {s : Sim} {i j k : Nat} (h : LaneMates (SameLane dev) s i j) (h' : LaneMates (SameLane dev) s j k) :
    LaneMates (SameLane dev) s i k := by
  obtain ⟨a, b, h1, h2, h3⟩ := h
  obtain ⟨b', c, h4, h5, h6⟩ := h'
  have e := Option.some.inj (h2.symm.trans h4)
  subst e
  exact ⟨a, c, h1, h5, sameLane_trans h3 h6⟩

theorem laneMates_symm {dev : Device} {s : Sim} {i j : Nat} (h : LaneMates (SameLane dev) s i j) : LaneMates (SameLane dev) s j i := by
  obtain ⟨a, b, h1, h2, h3⟩ := h
  exact ⟨b, a, h2, h1, sameLane_symm h3⟩

/-- Every issue queue can be listed. -/
theorem lane_exists {dev : Device} {s : Sim} {i : Nat} (hi : LaneMates (SameLane dev) s i i) : ∃ l, Lane dev s l ∧ i ∈ l := by
  classical
  have hlt : ∀ {j k : Nat}, LaneMates (SameLane dev) s j k → j < s.ts.length := by
    rintro j k ⟨a, _, h, _⟩
    exact (List.getElem?_eq_some_iff.mp h).1
  let off : Nat → Nat := fun j => match s.ts[j]? with
    | some t => t.params.offset
    | none => 0
  let key : Nat → Nat := fun j => off j * s.ts.length + j
  let F := ((Finset.range s.ts.length).filter fun j => LaneMates (SameLane dev) s j i).image key
  have hmod : ∀ j, j < s.ts.length → key j % s.ts.length = j := fun j hj => by
    show (off j * s.ts.length + j) % _ = j
    rw [Nat.mul_comm, Nat.mul_add_mod, Nat.mod_eq_of_lt hj]
  have hmem : ∀ j, j ∈ F.sort.map (· % s.ts.length) ↔ LaneMates (SameLane dev) s j i := by
    intro j
    rw [List.mem_map]
    constructor
    · rintro ⟨x, hx, rfl⟩
      rw [Finset.mem_sort, Finset.mem_image] at hx
      obtain ⟨y, hy, rfl⟩ := hx
      obtain ⟨h1, h2⟩ := Finset.mem_filter.mp hy
      rw [hmod y (Finset.mem_range.mp h1)]
      exact h2
    · intro h
      exact ⟨key j, by rw [Finset.mem_sort, Finset.mem_image]; exact ⟨j, Finset.mem_filter.mpr ⟨Finset.mem_range.mpr (hlt h), h⟩, rfl⟩,
        hmod j (hlt h)⟩
  refine ⟨F.sort.map (· % s.ts.length), ⟨?_, ?_, ?_⟩, (hmem i).mpr hi⟩
  · rw [List.pairwise_map]
    refine (F.sortedLT_sort.pairwise).imp_of_mem fun {a b} ha hb hab => ?_
    rw [Finset.mem_sort, Finset.mem_image] at ha hb
    obtain ⟨x, hx, rfl⟩ := ha
    obtain ⟨y, hy, rfl⟩ := hb
    have hx := Finset.mem_range.mp (Finset.mem_filter.mp hx).1
    have hy := Finset.mem_range.mp (Finset.mem_filter.mp hy).1
    rw [hmod x hx, hmod y hy]
    refine ⟨_, _, List.getElem?_eq_getElem hx, List.getElem?_eq_getElem hy, ?_⟩
    have ex : off x = s.ts[x].params.offset := by
      show (match s.ts[x]? with | some t => t.params.offset | none => 0) = _
      rw [List.getElem?_eq_getElem hx]
    have ey : off y = s.ts[y].params.offset := by
      show (match s.ts[y]? with | some t => t.params.offset | none => 0) = _
      rw [List.getElem?_eq_getElem hy]
    have hab' : off x * s.ts.length + x < off y * s.ts.length + y := hab
    rw [← ex, ← ey]
    rcases Nat.lt_trichotomy (off x) (off y) with h | h | h
    · exact Or.inl h
    · refine Or.inr ⟨h, ?_⟩
      rw [h] at hab'
      omega
    · have := Nat.mul_le_mul_right s.ts.length h
      rw [Nat.succ_mul] at this
      omega
  · intro a ha b hb
    exact laneMates_trans ((hmem a).mp ha) (laneMates_symm ((hmem b).mp hb))
  · intro a ha b hb
    exact (hmem b).mpr (laneMates_trans hb ((hmem a).mp ha))

/-- C157 for issue queues: at most two transfers of a queue are under way at a time, so the estimate is not below half of the
time that all transfers of the queue need one at a time (with the same deductions).  `O` is a cycle before which none of them is
scheduled. -/
theorem C157_queue_partial (fp : FP) (dev : Device) (hd : DeviceOk dev) (hT : TableOk fp dev.tbt) (cpt : Nat) (hpos : 0 < cpt)
    (hcpt : cpt ≤ 25000000) (en : Bool) (ho : HashOrder) (hb : ∀ l, (ho.buckets l).Perm l) (wl : Workload)
    (hw : ∀ t ∈ wl.transfers, t.packetSize < 4294967296 ∧ SaneRate fp t ∧ 0 < own fp dev t) (hon : OnChips dev wl.transfers)
    (hp : ∀ t ∈ wl.transfers, ¬ NamesParent t)
    (s : Sim) (st : Stats) (h : runSingle fp dev ho cpt en wl = .ok (.inl (s, st)))
    (d : Int) (ds : DevStats) (g : Nat × Nat) (hm : (d, ds) ∈ st) (hg : wl.golden.at d = .ok g)
    (l : List Nat) (hl : Lane dev s l) (O : Nat) (hO : O ≤ ds.estimated + g.1)
    (hrel : ∀ i ∈ l, ∀ t, s.ts[i]? = some t → Relevant d g t.params ∧ O ≤ t.params.offset) :
    (l.map fun i => match s.ts[i]? with
      | some t => leastTime fp dev cpt t
      | none => 0).sum ≤ 2 * ((ds.estimated : ℚ) + g.1 - O) := by
  obtain ⟨s0, c, h0, hrun, _, hs, _⟩ := runSingle_ok h
  have hr := C14_device_models fp dev en cpt wl.golden
  have hperm := (C14_all_delivered _ hr ho wl s c hrun).1
  have hO' : (O : ℚ) ≤ ds.estimated + g.1 := by exact_mod_cast hO
  let f : Nat → ℚ := fun k => match l[k]? with
    | some i => match s.ts[i]? with
      | some t => leastTime fp dev cpt t
      | none => 0
    | none => 0
  have hget : ∀ k (hk : k < l.length), ∃ t, s.ts[l[k]]? = some t ∧ f k = leastTime fp dev cpt t := by
    intro k hk
    obtain ⟨t, _, h1, _⟩ := hl.mates _ (List.getElem_mem hk) _ (List.getElem_mem hk)
    refine ⟨t, h1, ?_⟩
    show (match l[k]? with
      | some i => match s.ts[i]? with
        | some t => leastTime fp dev cpt t
        | none => 0
      | none => 0) = _
    rw [List.getElem?_eq_getElem hk]
    simp only [h1]
  have chain : ∀ k (hk : k < l.length), ∃ x, ChainTime (leastTime fp dev cpt) s l[k] x ∧ (O : ℚ) + everySecond f k ≤ x := by
    have start : ∀ k (hk : k < l.length), ∃ x, ChainTime (leastTime fp dev cpt) s l[k] x ∧ (O : ℚ) + f k ≤ x := by
      intro k hk
      obtain ⟨t, ht, hf⟩ := hget k hk
      refine ⟨_, .first ht, ?_⟩
      have h1 : (O : ℚ) ≤ t.params.offset := by exact_mod_cast (hrel _ (List.getElem_mem hk) t ht).2
      rw [hf]
      linarith
    intro k
    induction k using Nat.twoStepInduction with
    | zero => exact start 0
    | one => exact start 1
    | more k ih _ =>
      intro hk
      obtain ⟨x, hx, hle⟩ := ih (by omega)
      obtain ⟨t, ht, hf⟩ := hget (k + 2) hk
      have hmem : t.params ∈ wl.transfers := hperm.subset (List.mem_map.mpr ⟨t, List.mem_of_getElem? ht, rfl⟩)
      have hwait := (C19_partial (simConfig fp dev cpt wl.golden en) hr ho hb wl s0 h0 c s hs l[k + 2] t ht (hp _ hmem) l[k] 0).mpr
        ⟨rfl, hl.twoBefore hk⟩
      refine ⟨_, .next hx hwait ht, ?_⟩
      show (O : ℚ) + (everySecond f k + f (k + 2)) ≤ _
      rw [hf]
      push_cast
      linarith
  have bound : ∀ k (hk : k < l.length), everySecond f k ≤ (ds.estimated : ℚ) + g.1 - O := by
    intro k hk
    obtain ⟨x, hx, hle⟩ := chain k hk
    obtain ⟨t, ht, _⟩ := hget k hk
    have := C157_estimated_partial fp dev hd hT cpt hpos hcpt en ho hb wl hw hon s st h d ds g hm hg l[k] t ht
      (hrel _ (List.getElem_mem hk) t ht).1 x hx
    linarith
  have hmap : (l.map fun i => match s.ts[i]? with
      | some t => leastTime fp dev cpt t
      | none => 0) = (List.range l.length).map f := by
    refine List.ext_getElem? fun k => ?_
    rw [List.getElem?_map, List.getElem?_map]
    by_cases hk : k < l.length
    · rw [List.getElem?_eq_getElem hk, List.getElem?_range hk, Option.map_some, Option.map_some]
      show _ = some (match l[k]? with
        | some i => match s.ts[i]? with
          | some t => leastTime fp dev cpt t
          | none => 0
        | none => 0)
      rw [List.getElem?_eq_getElem hk]
    · rw [List.getElem?_eq_none (by omega), List.getElem?_eq_none (by rw [List.length_range]; omega)]
      rfl
  rw [hmap]
  match hn : l.length with
  | 0 => simp only [List.range_zero, List.map_nil, List.sum_nil]; linarith
  | 1 =>
    have := bound 0 (by omega)
    have e : ((List.range 1).map f).sum = everySecond f 0 := by simp [everySecond]
    rw [e]
    linarith
  | m + 2 =>
    rw [everySecond_sum]
    have h1 := bound m (by omega)
    have h2 := bound (m + 1) (by omega)
    linarith

/-! ### The violation, and an example -/

/-- The state at the end of a run of the sample device. -/
def endOf (ts : List Transfer) (en : Bool) : Option Sim :=
  match runLoop (simConfig .exact Sample.dev 128 (windowed 0 ts).golden en) ⟨id, id⟩ (windowed 0 ts) with
  | .ok (.finished s _) => some s
  | _ => none

/-- Transfer `i` waits for transfer `j`, as a test. -/
def waitsTest (s : Sim) (i j d : Nat) : Bool :=
  match s.ts[i]?, s.ts[j]? with
  | some ti, some tj => ti.dependsOn ∈ tj.requiredBy && decide (0 ≤ ti.dependsOn) &&
      (s.deps[ti.dependsOn.toNat]?.map (·.delay)) == some d
  | _, _ => false

theorem waits_of_test {s : Sim} {i j d : Nat} (h : waitsTest s i j d = true) : WaitsFor s i j d := by
  unfold waitsTest at h
  split at h
  · rename_i ti tj hi hj
    simp only [Bool.and_eq_true, decide_eq_true_eq, beq_iff_eq] at h
    obtain ⟨⟨h1, h2⟩, h3⟩ := h
    obtain ⟨cp, hcp, rfl⟩ := Option.map_eq_some_iff.mp h3
    exact ⟨ti, tj, cp, hi, hj, h1, h2, hcp, rfl⟩
  · cases h

/-- C157 does not hold without the extra timestep: the third transfer needs 512 cycles and waits for the first one, which
needs 128 cycles, but it ends at cycle 512. -/
theorem C157_violated : ¬ C157_claim := by
  intro h
  have hT : TableOk .exact Sample.dev.tbt := wormhole_table .exact false 1
  have hd : DeviceOk Sample.dev := ⟨by decide, by decide, by decide, by decide, fun _ => rfl⟩
  have key : (match runLoop (simConfig .exact Sample.dev 128 (windowed 0 optimistic).golden false) ⟨id, id⟩ (windowed 0 optimistic) with
      | .ok (.finished s _) => waitsTest s 2 0 0 && decide (s.ts.map (fun t => (t.params.offset, aloneTime .exact Sample.dev t, t.endc)) =
          [(0, 128, 128), (0, 1, 1), (128, 512, 512)])
      | _ => false) = true := by decide +kernel
  split at key
  · rename_i s c hrun
    simp only [Bool.and_eq_true, decide_eq_true_eq] at key
    obtain ⟨k1, k2⟩ := key
    have hw := waits_of_test k1
    have get : ∀ i : Nat, (s.ts[i]?).map (fun t => (t.params.offset, aloneTime .exact Sample.dev t, t.endc)) =
        [(0, 128, 128), (0, 1, 1), (128, 512, 512)][i]? := by
      intro i
      rw [← List.getElem?_map, k2]
    obtain ⟨t0, g0, e0⟩ := Option.map_eq_some_iff.mp (get 0)
    obtain ⟨t2, g2, e2⟩ := Option.map_eq_some_iff.mp (get 2)
    simp only [Prod.mk.injEq] at e0 e2
    have hts : ∀ t ∈ (windowed 0 optimistic).transfers, t.packetSize < 4294967296 ∧ 0 ≤ t.injectionRate ∧ 0 < own .exact Sample.dev t := by
      decide +kernel
    have := h Sample.dev hd hT 128 (by decide) (by decide) false ⟨id, id⟩ (fun _ => .refl _) (windowed 0 optimistic)
      (fun t ht => ⟨(hts t ht).1, ⟨(hts t ht).2.1, rfl⟩, (hts t ht).2.2⟩) s c hrun 2 t2 g2 _ (.next (.first g0) hw g2)
    rw [e0.1, e0.2.1, e2.2.1, e2.2.2] at this
    norm_num at this
  · cases key

/-- Five transfers of 900 bytes in one queue, with one byte per cycle: the last one waits for the third, which waits for the
first; it ends at cycle 2700.  The bound of `C157_partial` is above 2371. -/
example : (match endOf (List.replicate 5 (Sample.tr 900 0)) false with
    | some s => waitsTest s 4 2 0 && waitsTest s 2 0 0 && decide (s.ts.map (fun t => (aloneTime .exact Sample.dev t, t.endc)) =
        [(900, 900), (900, 900), (900, 1800), (900, 1800), (900, 2700)]) &&
        decide (2371 < (([0, 2, 4].filterMap fun i : Nat => s.ts[i]?).map (leastTime .exact Sample.dev 128)).sum)
    | _ => false) = true := by decide +kernel

end NPE.Props
