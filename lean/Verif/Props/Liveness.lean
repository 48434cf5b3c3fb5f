import Verif.Proofs.Timetable
import Mathlib.Data.Finset.Card
import Mathlib.Data.Finset.Range
import Verif.Props.Api
import Verif.Props.Congestion

/-
Property C22: runs complete.
-/

namespace NPE.Props
open NPE NPE.Spec

/-- The potential at the start is the number of timesteps for all bytes plus twice the number of
transfers. -/
theorem potential_init (q : Nat) {fp : FP} {dev : Device} {ho : HashOrder} {wl : Workload} {s0 : Sim}
    (h0 : initSim fp dev ho wl = .ok s0) :
    potential q s0 = (wl.transfers.map fun t => steps q t.totalBytes).sum + 2 * wl.transfers.length := by
  obtain ⟨I, ts, h1, h2⟩ := initSim_ok h0
  have hq : s0.queue.length = wl.transfers.length := by
    have := I.queue.length_eq
    rw [List.length_map, List.length_range, I.len] at this
    exact this
  obtain ⟨hf, hd⟩ := init_fresh h1
  obtain ⟨e1, _⟩ := gen_ok hf hd h2
  have hp0 : s0.ts.map (·.params) = ts.map (·.params) := by
    rw [e1]
    apply List.ext_getElem?
    intro i
    simp only [List.getElem?_map]
    cases hti : (tsOf ts (allEdges fp dev ho.buckets ts))[i]? with
    | none =>
      have : ts[i]? = none := by
        rw [List.getElem?_eq_none_iff] at hti ⊢
        unfold tsOf at hti
        simpa using hti
      rw [this]
    | some t =>
      obtain ⟨t0, h3, rfl⟩ := tsOf_get.mp hti
      rw [h3]
      rfl
  have hperm : (s0.ts.map (·.params)).Perm wl.transfers := by rw [hp0]; exact init_perm h1
  have hb : remaining q s0 = (wl.transfers.map fun t => steps q t.totalBytes).sum := by
    unfold remaining
    rw [← (hperm.map fun t => steps q t.totalBytes).sum_eq, List.map_map]
    congr 1
    apply List.map_congr_left
    intro t ht
    obtain ⟨i, hi⟩ := List.mem_iff_getElem?.mp ht
    rw [(I.slots i t hi).2.2.2.2.2]
    rfl
  unfold potential
  rw [hb, hq, I.live]
  rfl

/-- C22.  If no transfer waits for itself (directly or through others), every transfer that is active
moves at least `q` bytes (`q` at least one) per full timestep, and the deadline computed from latest offset, bytes,
number of transfers, largest delay and timestep length is within the cycle limit, then the loop does
not end at the limit: it finishes by the deadline with every transfer completed.  For every rounding
and every congestion model. -/
theorem C22_completes (q : Nat) (hq : 0 < q) (cfg : SimCfg) (hr : OnlyBandwidth cfg.rates) (ho : HashOrder) (wl : Workload)
    (s0 : Sim) (h0 : initSim cfg.fp cfg.dev ho wl = .ok s0) (hac : AcyclicWaits s0)
    (hmove : KeepsMoving cfg s0 q) (latest delay : Nat)
    (hlatest : ∀ t ∈ wl.transfers, t.offset ≤ latest)
    (hdelay : ∀ i j d, WaitsFor s0 i j d → d ≤ delay)
    (hlim : deadline wl q latest delay cfg.cpt ≤ 50000000)
    (e : Ending) (h : runLoop cfg ho wl = .ok e) :
    ∃ s c, e = .finished s c ∧ c ≤ deadline wl q latest delay cfg.cpt ∧
      ∀ i < wl.transfers.length, Completed s i := by
  have hi0 := init_inv h0
  obtain ⟨I, _⟩ := initSim_ok h0
  have hb : ∀ {c : Nat} {s : Sim}, Reach cfg s0 c s → c ≤ deadline wl q latest delay cfg.cpt := by
    intro c s hs
    refine (Spec.Reach.over_by hq hr hi0 ?_ hac hmove (O := latest) (D := delay) ?_ hdelay
      (K := deadline wl q latest delay cfg.cpt) ?_ hlim hs).1
    · intro t ht
      obtain ⟨i, hi⟩ := List.mem_iff_getElem?.mp ht
      exact (I.slots i t hi).2.2.2.1
    · intro t ht
      obtain ⟨i, hi⟩ := List.mem_iff_getElem?.mp ht
      exact hlatest _ (I.slots i t hi).1
    · rw [potential_init q h0]; rfl
  unfold runLoop at h
  rw [h0, Out.bind_ok] at h
  rcases simLoop_reach (s0 := s0) simFuel 0 s0 _ .start (Or.inl rfl) (by rw [Nat.zero_add]; exact h) with
    ⟨s', c', he, hs, hl, hq, _⟩ | ⟨s', c', he, hs, hlt, _⟩
  · refine ⟨s', c', he, hb hs, fun i hi => ?_⟩
    have hlen : s'.ts.length = wl.transfers.length := by
      have := congrArg List.length (hs.stat hr hi0)
      rw [List.length_map, List.length_map, I.len] at this
      exact this
    have hit : s'.ts[i]? = some (s'.ts[i]'(by omega)) := List.getElem?_eq_getElem (by omega)
    have hnq : i ∉ s'.queue.map (·.2) := by rw [hq]; simp
    have hnl : i ∉ s'.live := by rw [hl]; simp
    exact ⟨_, hit, (hs.inv hr hi0).finished i _ hit hnq hnl, by rw [waiting_iff]; exact hnq, hnl⟩
  · have := hb hs
    unfold MAX_CYCLE_LIMIT at hlt
    omega

/-- Transfers without parents wait for earlier ones only, so the waits are acyclic, and they wait
without delay. -/
theorem acyclic_without_groups {fp : FP} {dev : Device} {ho : HashOrder} {wl : Workload} {s0 : Sim}
    (h0 : initSim fp dev ho wl = .ok s0) (hb : ∀ l, (ho.buckets l).Perm l)
    (hp : ∀ t ∈ wl.transfers, ¬ NamesParent t) :
    AcyclicWaits s0 ∧ ∀ i j d, WaitsFor s0 i j d → d ≤ 0 := by
  obtain ⟨ts, I⟩ := init0 h0
  have key : ∀ i j d, WaitsFor s0 i j d → d = 0 ∧ Earlier s0 j i := by
    intro i j d hw
    obtain ⟨ti, _, _, hti, _⟩ := id hw
    have hnp := hp _ ((initSim_ok h0).1.slots i ti hti).1
    obtain ⟨h1, h2⟩ := (I.waits_niu hb hti hnp j d).mp hw
    exact ⟨h1, h2.2.1⟩
  refine ⟨?_, fun i j d hw => (key i j d hw).1.le⟩
  let f : Nat → Nat ×ₗ Nat := fun i => toLex (((s0.ts[i]?).map (·.params.offset)).getD 0, i)
  have hwf : WellFounded (fun a b : Nat => f a < f b) := InvImage.wf f wellFounded_lt
  refine Subrelation.wf (r := fun a b : Nat => f a < f b) ?_ hwf
  rintro j i ⟨d, hw⟩
  obtain ⟨tj, ti, h1, h2, h3⟩ := (key i j d hw).2
  show toLex _ < toLex _
  rw [Prod.Lex.toLex_lt_toLex]
  simp only [h1, h2, Option.map_some, Option.getD_some]
  exact h3

/-- C22, workloads without transfer groups: nothing has to be assumed about the waits, and the delay
is zero. -/
theorem C22_without_groups (q : Nat) (hq : 0 < q) (cfg : SimCfg) (hr : OnlyBandwidth cfg.rates) (ho : HashOrder)
    (hb : ∀ l, (ho.buckets l).Perm l) (wl : Workload) (hp : ∀ t ∈ wl.transfers, ¬ NamesParent t)
    (s0 : Sim) (h0 : initSim cfg.fp cfg.dev ho wl = .ok s0) (hmove : KeepsMoving cfg s0 q) (latest : Nat)
    (hlatest : ∀ t ∈ wl.transfers, t.offset ≤ latest)
    (hlim : deadline wl q latest 0 cfg.cpt ≤ 50000000) (e : Ending) (h : runLoop cfg ho wl = .ok e) :
    ∃ s c, e = .finished s c ∧ c ≤ deadline wl q latest 0 cfg.cpt ∧
      ∀ i < wl.transfers.length, Completed s i := by
  obtain ⟨h1, h2⟩ := acyclic_without_groups h0 hb hp
  exact C22_completes q hq cfg hr ho wl s0 h0 h1 hmove latest 0 hlatest h2 hlim e h

/-- C22, timetables.  If transfer `i` moves at least `q i` bytes per full timestep while it is active, and `due`
leaves every transfer enough time after its offset and after what it waits for, with the last transfer due within
the cycle limit, then the loop finishes at most one timestep after the last transfer is due, and every transfer
is completed and ends when it is due or before.  (A timetable exists only if no transfer waits for itself.) -/
theorem C22_in_time (q : Nat → Nat) (hq : ∀ i, 0 < q i) (cfg : SimCfg) (hr : OnlyBandwidth cfg.rates)
    (hcpt : 0 < cfg.cpt) (hcpt2 : cfg.cpt ≤ 25000000) (ho : HashOrder) (wl : Workload)
    (s0 : Sim) (h0 : initSim cfg.fp cfg.dev ho wl = .ok s0) (hmove : MovesEach cfg s0 q) (due : Nat → Nat)
    (htt : Timetable s0 q cfg.cpt due) (last : Nat) (hlast : ∀ i < wl.transfers.length, due i ≤ last)
    (hlim : last ≤ 50000000) (e : Ending) (h : runLoop cfg ho wl = .ok e) :
    ∃ s c, e = .finished s c ∧ c ≤ last + cfg.cpt ∧
      ∀ i < wl.transfers.length, Completed s i ∧ ∃ t, s.ts[i]? = some t ∧ t.endc ≤ due i := by
  have hi0 := init_inv h0
  obtain ⟨I, _⟩ := initSim_ok h0
  have inv : ∀ {c : Nat} {s : Sim}, Reach cfg s0 c s → _ := fun {c} {s} hs =>
    Spec.Reach.onTime hq hr hi0 (fun t ht => by
      obtain ⟨i, hi⟩ := List.mem_iff_getElem?.mp ht
      exact (I.slots i t hi).2.2.2.1) I.live (fun i hi => by
      rw [waiting_iff]
      exact I.queue.symm.subset (List.mem_range.mpr hi)) hcpt hcpt2 hmove htt hs
  have hlen : ∀ {c : Nat} {s : Sim}, Reach cfg s0 c s → s.ts.length = wl.transfers.length := by
    intro c s hs
    have := congrArg List.length (hs.stat hr hi0)
    rw [List.length_map, List.length_map, I.len] at this
    exact this
  have over : ∀ {c : Nat} {s : Sim}, Reach cfg s0 c s → last ≤ c → s.live = [] ∧ s.queue = [] := by
    intro c s hs hc
    have key : ∀ i < s.ts.length, ¬ Waiting s i ∧ ¬ Active s i := by
      intro i hi
      have ht : s.ts[i]? = some s.ts[i] := List.getElem?_eq_getElem hi
      obtain ⟨_, a2, a3⟩ := inv hs
      obtain ⟨t0, ht0, e0, _⟩ := hs.static_get hr hi0 ht
      obtain ⟨b, hb, hd, hdue⟩ := htt i t0 ht0
      have hl := hlast i (by rw [← hlen hs]; exact hi)
      rw [Nat.add_mul] at hdue
      exact (a3 i b t0 ht0 hb hd _ ht).over hcpt (hq i) (a2 i _ ht) (by rw [← e0]; omega)
    have hi := hs.inv hr hi0
    constructor
    · by_contra hne
      obtain ⟨i, him⟩ := List.exists_mem_of_ne_nil _ hne
      exact (key i (hi.lt i (List.mem_append_right _ him))).2 him
    · by_contra hne
      obtain ⟨x, hx⟩ := List.exists_mem_of_ne_nil _ hne
      exact (key x.2 (hi.lt x.2 (List.mem_append_left _ (List.mem_map_of_mem (f := (·.2)) hx)))).1 ⟨x.1, hx⟩
  unfold runLoop at h
  rw [h0, Out.bind_ok] at h
  rcases simLoop_reach (s0 := s0) simFuel 0 s0 _ .start (Or.inl rfl) (by rw [Nat.zero_add]; exact h) with
    ⟨s', c', he, hs, hl, hqe, _⟩ | ⟨s', c', he, hs, hlt, hne⟩
  · refine ⟨s', c', he, ?_, fun i hi => ?_⟩
    · cases hs with
      | start => exact Nat.zero_le _
      | @step c s _ hs hc _ =>
        rcases hc with hc | ⟨_, hc⟩
        · omega
        · by_contra hcon
          exact hc (over hs (by omega))
    · have hlt : i < s'.ts.length := by rw [hlen hs]; exact hi
      have hit : s'.ts[i]? = some s'.ts[i] := List.getElem?_eq_getElem hlt
      have hnq : i ∉ s'.queue.map (·.2) := by rw [hqe]; simp
      have hnl : i ∉ s'.live := by rw [hl]; simp
      refine ⟨⟨_, hit, (hs.inv hr hi0).finished i _ hit hnq hnl, by rw [waiting_iff]; exact hnq, hnl⟩, _, hit, ?_⟩
      obtain ⟨_, _, a3⟩ := inv hs
      obtain ⟨t0, ht0, e0, _⟩ := hs.static_get hr hi0 hit
      obtain ⟨b, hb, hd, hdue⟩ := htt i t0 ht0
      have := (a3 i b t0 ht0 hb hd _ hit).done (by rw [waiting_iff]; exact hnq) hnl
      rw [← e0] at this
      omega
  · have := over hs (by unfold MAX_CYCLE_LIMIT at hlt; omega)
    exact absurd this hne

theorem earlier_trans {s : Sim} {a b c : Nat} (h1 : Earlier s a b) (h2 : Earlier s b c) : Earlier s a c := by
  obtain ⟨ta, tb, e1, e2, h1⟩ := h1
  obtain ⟨tb', tc, e3, e4, h2⟩ := h2
  rw [e2] at e3
  have := Option.some.inj e3
  subst this
  exact ⟨ta, tc, e1, e4, by omega⟩

theorem earlier_ne {s : Sim} {a b : Nat} (h1 : Earlier s a b) : a ≠ b := by
  rintro rfl
  obtain ⟨ta, tb, e1, e2, h1⟩ := h1
  rw [e1] at e2
  have := Option.some.inj e2
  subst this
  omega

open Classical in
/-- The number of transfers before `i` in the order of offsets. -/
noncomputable def earlierCount (s : Sim) (i : Nat) : Nat :=
  ((Finset.range s.ts.length).filter fun k => Earlier s k i).card

theorem earlierCount_lt {s : Sim} {i : Nat} (hi : i < s.ts.length) : earlierCount s i < s.ts.length := by
  classical
  unfold earlierCount
  have h : ((Finset.range s.ts.length).filter fun k => Earlier s k i) ⊂ Finset.range s.ts.length := by
    refine Finset.filter_ssubset.mpr ⟨i, Finset.mem_range.mpr hi, fun h => earlier_ne h rfl⟩
  have := Finset.card_lt_card h
  rwa [Finset.card_range] at this

theorem earlierCount_two {s : Sim} {i j k : Nat} (h1 : Earlier s j k) (h2 : Earlier s k i) :
    earlierCount s j + 2 ≤ earlierCount s i := by
  classical
  have hlt : ∀ {a b : Nat}, Earlier s a b → a < s.ts.length := fun ⟨_, _, e, _⟩ => (List.getElem?_eq_some_iff.mp e).1
  unfold earlierCount
  have hj : j ∉ (Finset.range s.ts.length).filter fun x => Earlier s x j := by
    intro h; exact earlier_ne (Finset.mem_filter.mp h).2 rfl
  have hk : k ∉ insert j ((Finset.range s.ts.length).filter fun x => Earlier s x j) := by
    intro h
    rcases Finset.mem_insert.mp h with h | h
    · exact earlier_ne h1 h.symm
    · exact earlier_ne (earlier_trans h1 (Finset.mem_filter.mp h).2) rfl
  have hsub : insert k (insert j ((Finset.range s.ts.length).filter fun x => Earlier s x j)) ⊆
      (Finset.range s.ts.length).filter fun x => Earlier s x i := by
    intro x hx
    rw [Finset.mem_insert, Finset.mem_insert, Finset.mem_filter] at hx
    rw [Finset.mem_filter, Finset.mem_range]
    rcases hx with rfl | rfl | ⟨hx1, hx2⟩
    · exact ⟨hlt h2, h2⟩
    · exact ⟨hlt h1, earlier_trans h1 h2⟩
    · exact ⟨Finset.mem_range.mp hx1, earlier_trans hx2 (earlier_trans h1 h2)⟩
  have := Finset.card_le_card hsub
  rw [Finset.card_insert_of_notMem hk, Finset.card_insert_of_notMem hj] at this
  exact this

/-- C22, workloads without transfer groups, by lanes: the loop finishes by the deadline of lanes. -/
theorem C22_lanes (q : Nat) (hq : 0 < q) (cfg : SimCfg) (hr : OnlyBandwidth cfg.rates) (hcpt : 0 < cfg.cpt)
    (hcpt2 : cfg.cpt ≤ 25000000) (ho : HashOrder)
    (hb : ∀ l, (ho.buckets l).Perm l) (wl : Workload) (hp : ∀ t ∈ wl.transfers, ¬ NamesParent t)
    (s0 : Sim) (h0 : initSim cfg.fp cfg.dev ho wl = .ok s0) (hmove : KeepsMoving cfg s0 q) (latest : Nat)
    (hlatest : ∀ t ∈ wl.transfers, t.offset ≤ latest) (most : Nat)
    (hmost : ∀ t ∈ wl.transfers, steps q t.totalBytes ≤ most)
    (hlim : laneDeadline wl.transfers.length most latest cfg.cpt ≤ 50000000)
    (e : Ending) (h : runLoop cfg ho wl = .ok e) :
    ∃ s c, e = .finished s c ∧ c ≤ laneDeadline wl.transfers.length most latest cfg.cpt + cfg.cpt ∧
      ∀ i < wl.transfers.length, Completed s i := by
  obtain ⟨ts, I0⟩ := init0 h0
  obtain ⟨I, _⟩ := initSim_ok h0
  set H := (most + 3) * cfg.cpt + 32 with hH
  have hH' : most * cfg.cpt + 3 * cfg.cpt + 32 = H := by rw [hH, Nat.add_mul]
  have := C22_in_time (fun _ => q) (fun _ => hq) cfg hr hcpt hcpt2 ho wl s0 h0 hmove
    (fun i => latest + 1 + (earlierCount s0 i / 2 + 1) * H) ?_ (laneDeadline wl.transfers.length most latest cfg.cpt)
    ?_ hlim e h
  · obtain ⟨s, c, h1, h2, h3⟩ := this
    exact ⟨s, c, h1, h2, fun i hi => (h3 i hi).1⟩
  · intro i t ht
    have hm := (I.slots i t ht).1
    refine ⟨latest + 1 + earlierCount s0 i / 2 * H + cfg.cpt, ?_, ?_, ?_⟩
    · have := hlatest _ hm; omega
    · intro j d hw
      obtain ⟨rfl, _, _, k, ⟨_, h1, h2⟩, _⟩ := (I0.waits_niu hb ht (hp _ hm) j d).mp hw
      have h3 := earlierCount_two h1 h2
      have h4 : (earlierCount s0 j / 2 + 1) * H ≤ earlierCount s0 i / 2 * H := Nat.mul_le_mul_right _ (by omega)
      show latest + 1 + (earlierCount s0 j / 2 + 1) * H + 0 + cfg.cpt ≤ _
      omega
    · have h1 := Nat.mul_le_mul_right cfg.cpt (hmost _ hm)
      show latest + 1 + earlierCount s0 i / 2 * H + cfg.cpt + (steps q t.params.totalBytes + 2) * cfg.cpt + 32 ≤
        latest + 1 + (earlierCount s0 i / 2 + 1) * H
      rw [Nat.add_mul (steps q _), Nat.add_mul (_ / 2)]
      omega
  · intro i hi
    have hc := earlierCount_lt (s := s0) (i := i) (by rw [I.len]; exact hi)
    rw [I.len] at hc
    unfold laneDeadline
    have : (earlierCount s0 i / 2 + 1) * H ≤ (wl.transfers.length + 1) / 2 * H := Nat.mul_le_mul_right _ (by omega)
    show latest + 1 + (earlierCount s0 i / 2 + 1) * H ≤ latest + 1 + (wl.transfers.length + 1) / 2 * H
    omega

/-- C22, workloads without transfer groups, either deadline. -/
theorem C22_ends (q : Nat) (hq : 0 < q) (cfg : SimCfg) (hr : OnlyBandwidth cfg.rates) (hcpt : 0 < cfg.cpt)
    (ho : HashOrder) (hb : ∀ l, (ho.buckets l).Perm l) (wl : Workload) (hp : ∀ t ∈ wl.transfers, ¬ NamesParent t)
    (s0 : Sim) (h0 : initSim cfg.fp cfg.dev ho wl = .ok s0) (hmove : KeepsMoving cfg s0 q) (latest : Nat)
    (hlatest : ∀ t ∈ wl.transfers, t.offset ≤ latest) (hlim : EndsInTime wl q latest cfg.cpt)
    (e : Ending) (h : runLoop cfg ho wl = .ok e) :
    ∃ s c, e = .finished s c ∧ ∀ i < wl.transfers.length, Completed s i := by
  rcases hlim with hlim | ⟨most, h1, h2, h3⟩
  · obtain ⟨s, c, he, _, h4⟩ := C22_without_groups q hq cfg hr ho hb wl hp s0 h0 hmove latest hlatest hlim e h
    exact ⟨s, c, he, h4⟩
  · obtain ⟨s, c, he, _, h4⟩ := C22_lanes q hq cfg hr hcpt h2 ho hb wl hp s0 h0 hmove latest hlatest most h1 h3 e h
    exact ⟨s, c, he, h4⟩

/-- C22, the assumption on the waits is needed: if the loop finishes, the waits were acyclic.  So no run
of a workload in which a transfer waits for itself, directly or through others, finishes. -/
theorem C22_only_acyclic (cfg : SimCfg) (hr : OnlyBandwidth cfg.rates) (ho : HashOrder) (wl : Workload)
    (s0 : Sim) (h0 : initSim cfg.fp cfg.dev ho wl = .ok s0) (s : Sim) (c : Nat)
    (h : runLoop cfg ho wl = .ok (.finished s c)) : AcyclicWaits s0 := by
  have hi0 := init_inv h0
  obtain ⟨I, _⟩ := initSim_ok h0
  have key : ∀ {c : Nat} {s : Sim}, Reach cfg s0 c s → ∀ i, ¬ Waiting s i →
      _root_.Acc (fun j i : Nat => ∃ d, WaitsFor s0 i j d) i := by
    intro c s hs
    induction hs with
    | start =>
      intro i hi
      refine ⟨i, ?_⟩
      rintro j ⟨d, ti, _, _, hti, _⟩
      refine absurd ?_ hi
      rw [waiting_iff]
      exact I.queue.symm.subset (List.mem_range.mpr (List.getElem?_eq_some_iff.mp hti).1)
    | @step c sa sb hs hc h ih =>
      intro i hi
      by_cases hw : Waiting sa i
      · refine ⟨i, ?_⟩
        rintro j ⟨d, hj⟩
        obtain ⟨t, ht, _, hcase⟩ := C16_start_cycle cfg hr ho wl s0 h0 c sa sb hs h i hw hi
        have hja := (hs.waitsFor_iff hr hi0 i j d).mpr hj
        rcases hcase with ⟨hd, _⟩ | ⟨j', tj, d', hj', _, hcomp, _⟩
        · have hjb := ((Reach.step hs hc h).waitsFor_iff hr hi0 i j d).mpr hj
          obtain ⟨ti, _, _, hti, _, _, h4, _⟩ := hjb
          rw [ht] at hti
          rw [← Option.some.inj hti, hd] at h4
          omega
        · obtain ⟨ti, _, _, hti, _⟩ := id hja
          rcases (hs.inv hr hi0).waits_cases hti with ⟨_, hno⟩ | ⟨k, e, _, huniq⟩
          · exact absurd hja (hno j d)
          · have e1 := (huniq j d hja).1
            have e2 := (huniq j' d' hj').1
            rw [e1, ← e2]
            obtain ⟨_, _, _, hnw, _⟩ := hcomp
            exact ih j' hnw
      · exact ih i hw
  unfold runLoop at h
  rw [h0, Out.bind_ok] at h
  rcases simLoop_reach (s0 := s0) simFuel 0 s0 _ .start (Or.inl rfl) (by rw [Nat.zero_add]; exact h) with
    ⟨s', c', he, hs, hl, hq, _⟩ | ⟨s', c', he, _⟩
  · refine ⟨fun i => key hs i ?_⟩
    rw [waiting_iff, hq]
    simp
  · exact absurd he (by simp)

/-- A group member that names itself as its parent waits for itself: the run never finishes. -/
example (s : Sim) (c : Nat) : runLoop (simConfig .exact Sample.dev 128 [] false) ⟨id, id⟩
    (Sample.wl [{ Sample.tr 1 0 with groupId := 0, groupIdx := 0, groupParent := 0 }]) ≠ .ok (.finished s c) := by
  intro h
  obtain ⟨s0, h0, _⟩ := Out.bind_eq_ok.mp h
  have hac := C22_only_acyclic _ (C14_device_models _ _ _ _ _) _ _ s0 h0 s c h
  have hw : WaitsFor s0 0 0 50 := by
    have e : (initSim .exact Sample.dev ⟨id, id⟩ (Sample.wl
        [{ Sample.tr 1 0 with groupId := 0, groupIdx := 0, groupParent := 0 }]) >>= fun s =>
          .ok (s.ts.map fun t => (t.dependsOn, t.requiredBy), s.deps.map (·.delay))) =
        .ok ([(0, [0])], [50]) := by decide +kernel
    rw [show initSim .exact Sample.dev ⟨id, id⟩ (Sample.wl
        [{ Sample.tr 1 0 with groupId := 0, groupIdx := 0, groupParent := 0 }]) = .ok s0 from h0, Out.bind_ok] at e
    obtain ⟨e1, e2⟩ := Prod.mk.inj (Out.ok.inj e)
    obtain ⟨t, l, et, e3, e4⟩ := List.map_eq_cons_iff.mp e1
    obtain ⟨cp, l', ed, e5, e6⟩ := List.map_eq_cons_iff.mp e2
    obtain ⟨e7, e8⟩ := Prod.mk.inj e3
    refine ⟨t, t, cp, by rw [et]; rfl, by rw [et]; rfl, by rw [e7, e8]; simp, by rw [e7], by rw [e7, ed]; rfl, e5⟩
  exact hac.irrefl.irrefl 0 ⟨50, hw⟩

/-! ### Without congestion -/

/-- Without congestion the bandwidth of an active transfer is the one of the table, capped by the
injection rate. -/
theorem free_bw {fp : FP} {dev : Device} {cpt : Nat} {golden : GoldenMap} {c : Nat} {s s' : Sim}
    (F : StepFacts (simConfig fp dev cpt golden false) c (c + cpt) s s') {i : Nat}
    (hi : i ∈ F.P.s1.live) : ∃ t t2 t' b, Member (simConfig fp dev cpt golden false) (c + cpt) s s' i t t2 t' ∧
      interpolateBW fp dev.tbt dev.maxBw t.params.packetSize t.params.numPackets = .ok b ∧
      t2.bw = min t.params.injectionRate b ∧ t'.bw = t2.bw := by
  have hnd : F.P.s1.live.Nodup := (List.nodup_append.mp F.inv1.nodup).2.1
  obtain ⟨t, t2, t', ht2, M⟩ := F.member_rates hi
  obtain ⟨_, _, _, hw⟩ := C31_own_bandwidth fp dev _ _ _ _ _ _ _ hnd F.P.rates
  obtain ⟨u, b, hu, hb, hu2⟩ := hw i hi
  rw [ht2] at hu2
  have e := Option.some.inj hu2
  have hpar : u.params = t.params := by
    have h1 : t2.params = u.params := by rw [e]
    rw [← h1, M.same]
  refine ⟨t, t2, t', b, M, by rw [← hpar]; exact hb, by rw [e, ← hpar], ?_⟩
  obtain ⟨_, _, _, _, ⟨_, _, e'⟩ | ⟨_, _, _, _, e'⟩⟩ := M.ended <;> rw [e']

/-- The bandwidth of a transfer without congestion moves at least `q` bytes per full timestep. -/
def FastEnough (fp : FP) (dev : Device) (cpt q : Nat) (t : Transfer) : Prop :=
  ∃ b, interpolateBW fp dev.tbt dev.maxBw t.packetSize t.numPackets = .ok b ∧
    (q : ℚ) ≤ fp.f32.fl (fp.f32.fl cpt * min t.injectionRate b)

/-- The bandwidth of a transfer without congestion moves no byte, even if the timestep is credited
twice. -/
def TooSlow (fp : FP) (dev : Device) (cpt : Nat) (t : Transfer) : Prop :=
  ∃ b, interpolateBW fp dev.tbt dev.maxBw t.packetSize t.numPackets = .ok b ∧
    fp.f32.fl (fp.f32.fl ((2 * cpt : Nat) : ℚ) * min t.injectionRate b) < 1

/-- Executable transfers can be simulated without congestion. -/
theorem free_runnable {fp : FP} {dev : Device} {ho : HashOrder} {wl : Workload} {s0 : Sim}
    (h0 : initSim fp dev ho wl = .ok s0) (hg : GoldenAll dev wl.golden)
    (hx : ∀ t ∈ wl.transfers, Executable dev t) (hinj : ∀ t ∈ wl.transfers, 0 ≤ t.injectionRate) :
    ∀ t ∈ s0.ts, Runnable fp dev wl.golden false t := by
  intro t ht
  obtain ⟨i, hi⟩ := List.mem_iff_getElem?.mp ht
  obtain ⟨hm, _⟩ := (initSim_ok h0).1.slots i t hi
  have hx' := hx _ hm
  refine ⟨⟨hx'.packets, hx'.size.1, hinj _ hm, ?_⟩, ?_, fun h => nomatch h⟩
  · refine hg _ (List.mem_append_left _ ?_)
    unfold Device.deviceIDs
    have := hx'.src.1
    exact List.mem_map.mpr ⟨t.params.src.dev.toNat, List.mem_range.mpr (by omega), by omega⟩
  · intro hz
    have := hx'.bytes
    omega

/-- C22 for the device models without congestion: the simulation of every executable workload without
groups, whose transfers are fast enough for at least `q` bytes per timestep and one of whose deadlines is
within the cycle limit, returns statistics. -/
theorem C22_congestion_free (q : Nat) (hq : 0 < q) (fp : FP) (name : String) (dev : Device)
    (hdev : createDeviceModel fp name = .ok dev) (cpt : Nat) (hpos : 0 < cpt) (ho : HashOrder)
    (hord : ∀ l, (ho.links l).Perm l) (hb : ∀ l, (ho.buckets l).Perm l) (wl : Workload) (hw : wl.Dense)
    (hg : GoldenAll dev wl.golden) (hx : ∀ t ∈ wl.transfers, Executable dev t)
    (hp : ∀ t ∈ wl.transfers, ¬ NamesParent t)
    (hfast : ∀ t ∈ wl.transfers, 0 ≤ t.injectionRate ∧ FastEnough fp dev cpt q t) (latest : Nat)
    (hlatest : ∀ t ∈ wl.transfers, t.offset ≤ latest)
    (hlim : EndsInTime wl q latest cpt) :
    ∃ s st, runSingle fp dev ho cpt false wl = .ok (.inl (s, st)) := by
  obtain ⟨_, _, _, hmax⟩ := factory_rates hdev
  obtain ⟨hcap, hT⟩ := C26_devices fp _ _ hdev
  have hd := factory_devices_ok fp _ _ hdev
  have h32 : cpt < 4294967296 := by
    rcases hlim with hlim | ⟨_, _, hlim, _⟩
    · have : cpt ≤ deadline wl q latest 0 cpt := by
        unfold deadline
        rw [Nat.add_mul]
        omega
      omega
    · omega
  obtain ⟨s0, h0⟩ := exec_init (fp := fp) hd hord hw hx
  have hon := exec_onChips hx
  have hR := free_runnable h0 hg hx fun t ht => (hfast t ht).1
  obtain ⟨e, he⟩ := runLoop_total hd hT hcap hmax hpos h32 hg (en := false) hon h0 hR
  have hr := C14_device_models fp dev false cpt wl.golden
  have hmove : KeepsMoving (simConfig fp dev cpt wl.golden false) s0 q := by
    intro c s s' hs h i hi t ht
    obtain ⟨F⟩ := step_facts hr (Nat.le_add_right _ _) (hs.inv hr (init_inv h0)) h
    obtain ⟨t0, t2, t', b, M, hb, e1, e2⟩ := free_bw (fp := fp) (dev := dev) F ((F.mem_live1 i).mpr (Or.inl hi))
    have e3 := M.after
    rw [ht] at e3
    have e3 := Option.some.inj e3
    subst e3
    obtain ⟨u, hu, eu, _⟩ := hs.static_get hr (init_inv h0) M.before
    obtain ⟨b', hb', hf⟩ := (hfast _ ((initSim_ok h0).1.slots i u hu).1).2
    rw [eu, hb] at hb'
    have := Out.ok.inj hb'
    subst this
    rw [e2, e1, ← eu]
    exact hf
  obtain ⟨s, c, he', _⟩ := C22_ends q hq _ hr hpos ho hb wl hp s0 h0 hmove latest hlatest hlim e he
  subst he'
  rcases runSingle_total hd hT hcap hmax hpos h32 hg hon h0 hR with ⟨s, st, h1, _⟩ | h1
  · exact ⟨s, st, h1⟩
  · unfold runSingle at h1
    rw [he, Out.bind_ok] at h1
    obtain ⟨st, _, h1⟩ := Out.bind_eq_ok.mp h1
    simp at h1

/-- Three packets of 64 bytes and a multicast. -/
def smallTransfers : List Transfer :=
  [Transfer.make 64 3 ⟨0, 1, 1⟩ (.unicast ⟨0, 3, 2⟩) (281 / 10) 0 .noc0,
   Transfer.make 512 2 ⟨0, 1, 1⟩ (.mcast [⟨⟨0, 1, 1⟩, ⟨0, 2, 3⟩⟩]) (281 / 10) 7 .noc1]

def smallRun : Workload :=
  (Workload.addPhase {} { transfers := smallTransfers }).setGoldenResultCycles [(0, (0, 1000))]

/-- A thousand packets of one byte. -/
def tinyPackets : Transfer :=
  Transfer.make 1 1000 ⟨0, 1, 1⟩ (.unicast ⟨0, 3, 2⟩) (281 / 10) 0 .noc0

def manyPackets : Workload :=
  (Workload.addPhase {} { transfers := [tinyPackets] }).setGoldenResultCycles [(0, (0, 1000))]

theorem small_cases (t : Transfer) (h : t ∈ smallRun.transfers) :
    t = { smallTransfers[0] with phaseId := 0, id := 0 } ∨
      t = { smallTransfers[1] with phaseId := 0, id := 1 } := by
  have e : smallRun.transfers = [{ smallTransfers[0] with phaseId := 0, id := 0 },
      { smallTransfers[1] with phaseId := 0, id := 1 }] := by decide +kernel
  rw [e] at h
  simpa using h

theorem many_cases (t : Transfer) (h : t ∈ manyPackets.transfers) : t = { tinyPackets with phaseId := 0, id := 0 } := by
  have e : manyPackets.transfers = [{ tinyPackets with phaseId := 0, id := 0 }] := by decide +kernel
  rw [e] at h
  simpa using h

theorem oneGolden (wl : Workload) :
    GoldenAll (wormhole .exact false 1) (wl.setGoldenResultCycles [(0, (0, 1000))]).golden := by
  intro d hd
  have : d = 0 ∨ d = MESH_DEVICE := by
    simpa [Device.deviceIDs, wormhole] using hd
  rcases this with rfl | rfl <;> exact ⟨_, rfl⟩

/-- C22, the assumption on the bandwidth is needed: bytes of a timestep are rounded down, so a
transfer whose bandwidth yields less than one byte per timestep never moves, however long the run is.
No run of a workload with such a transfer finishes. -/
theorem C22_stuck (fp : FP) (dev : Device) (cpt : Nat) (hcpt : cpt ≤ 1000000000) (golden : GoldenMap)
    (ho : HashOrder) (wl : Workload) (t : Transfer) (ht : t ∈ wl.transfers) (hbytes : 1 ≤ t.totalBytes)
    (hslow : TooSlow fp dev cpt t) (s : Sim) (c : Nat) :
    runLoop (simConfig fp dev cpt golden false) ho wl ≠ .ok (.finished s c) := by
  intro h
  have hr := C14_device_models fp dev false cpt golden
  obtain ⟨hperm, hall⟩ := C14_all_delivered _ hr ho wl s c h
  unfold runLoop at h
  obtain ⟨s0, h0, h⟩ := Out.bind_eq_ok.mp h
  have hi0 := init_inv h0
  have key : ∀ {c : Nat} {s : Sim}, Reach (simConfig fp dev cpt golden false) s0 c s →
      ∀ (i : Nat) (u : TState), s.ts[i]? = some u → u.params = t → u.moved = 0 := by
    intro c s hs
    induction hs with
    | start =>
      intro i u hu _
      exact ((initSim_ok h0).1.slots i u hu).2.2.2.2.2
    | @step c sa sb hs hc h ih =>
      intro i u hu hut
      obtain ⟨F⟩ := step_facts hr (Nat.le_add_right _ _) (hs.inv hr hi0) h
      have hlt : i < sa.ts.length := by
        rw [← F.len]; exact (List.getElem?_eq_some_iff.mp hu).1
      by_cases hl : i ∈ F.P.s1.live
      · obtain ⟨t0, t2, t', b, M, hb, e1, _⟩ := free_bw (fp := fp) (dev := dev) F hl
        have e3 := M.after
        rw [hu] at e3
        have e3 := Option.some.inj e3
        subst e3
        have hp2 : t2.params = t0.params := by rw [M.same]
        have hm2 : t2.moved = t0.moved := by rw [M.same]
        obtain ⟨cyc, mx, h3, h4, h5⟩ := M.ended
        have hp : u.params = t0.params := by
          rcases h5 with ⟨_, _, e'⟩ | ⟨_, _, _, _, e'⟩ <;> rw [e'] <;> exact hp2
        have ht0 : t0.params = t := by rw [← hp]; exact hut
        have hz := ih i t0 M.before ht0
        have hck : c + cpt < 4294967296 := by
          have : c ≤ 1050000000 := by
            rcases hc with hc | ⟨hc, _⟩ <;> omega
          omega
        have hcl := (cyclesActive_le h3 M.started.start_le.2
          (by show c + cpt = c + cpt - cpt + cpt; omega) hck).2.1
        obtain ⟨b', hb', hf⟩ := hslow
        rw [← ht0, hb] at hb'
        have := Out.ok.inj hb'
        subst this
        rw [← ht0, ← e1] at hf
        have hmx : mx = 0 := by
          obtain ⟨_, _, e⟩ := toSize_ok h4
          have h6 : fp.f32.fl (fp.f32.fl cyc * t2.bw) < 1 := by
            by_cases hneg : t2.bw < 0
            · have h7 : fp.f32.fl (cyc : ℚ) * t2.bw ≤ 0 :=
                mul_nonpos_of_nonneg_of_nonpos (fp.f32.fl_nonneg (by positivity)) hneg.le
              have := fp.f32.fl_nonpos h7
              linarith
            · refine lt_of_le_of_lt (fp.f32.mono (mul_le_mul_of_nonneg_right (fp.f32.mono ?_) (not_lt.mp hneg))) hf
              exact_mod_cast hcl
          have h8 : (fp.f32.fl (fp.f32.fl cyc * t2.bw)).floor < 1 := by
            by_contra hcon
            have := Rat.le_floor_iff.mp (not_lt.mp hcon)
            push_cast at this
            linarith
          rw [e]
          have e9 : (simConfig fp dev cpt golden false).fp = fp := rfl
          rw [e9]
          omega
        have htot : 1 ≤ t2.params.totalBytes := by rw [hp2, ht0]; exact hbytes
        rcases h5 with ⟨_, _, e'⟩ | ⟨h6, _⟩
        · rw [e']
          simp only
          omega
        · omega
      · obtain ⟨t', h1, h2⟩ := F.inactive (List.getElem?_eq_getElem hlt) hl
        rw [hu] at h1
        have h1 := Option.some.inj h1
        subst h1
        have hm : u.moved = (sa.ts[i]).moved := by rw [h2]
        rw [hm]
        refine ih i _ (List.getElem?_eq_getElem hlt) ?_
        have hp : u.params = (sa.ts[i]).params := by rw [h2]
        rw [← hp]; exact hut
  have hmem : t ∈ s.ts.map (·.params) := hperm.symm.subset ht
  obtain ⟨u, hu, hut⟩ := List.mem_map.mp hmem
  obtain ⟨i, hi⟩ := List.mem_iff_getElem?.mp hu
  rcases simLoop_reach (s0 := s0) simFuel 0 s0 _ .start (Or.inl rfl) (by rw [Nat.zero_add]; exact h) with
    ⟨s', c', he, hs, _⟩ | ⟨s', c', he, _⟩
  · obtain ⟨rfl, rfl⟩ := Ending.finished.inj he
    have h1 := key hs i u hi hut
    have h2 := (hall i u hi).1
    rw [hut] at h2
    omega
  · exact absurd he (by simp)

/-- C22, the assumption on the bandwidth is needed, device models: the simulation of an executable
workload with such a transfer returns the cycle limit error. -/
theorem C22_stuck_error (fp : FP) (name : String) (dev : Device)
    (hdev : createDeviceModel fp name = .ok dev) (cpt : Nat) (hpos : 0 < cpt) (hcpt : cpt ≤ 1000000000)
    (ho : HashOrder) (hord : ∀ l, (ho.links l).Perm l) (wl : Workload) (hw : wl.Dense)
    (hg : GoldenAll dev wl.golden) (hx : ∀ t ∈ wl.transfers, Executable dev t)
    (hinj : ∀ t ∈ wl.transfers, 0 ≤ t.injectionRate)
    (hslow : ∃ t ∈ wl.transfers, TooSlow fp dev cpt t) :
    runSingle fp dev ho cpt false wl = .ok (.inr .exceededSimCycleLimit) := by
  obtain ⟨_, _, _, hmax⟩ := factory_rates hdev
  obtain ⟨hcap, hT⟩ := C26_devices fp _ _ hdev
  have hd := factory_devices_ok fp _ _ hdev
  obtain ⟨s0, h0⟩ := exec_init (fp := fp) hd hord hw hx
  rcases runSingle_total hd hT hcap hmax hpos (by omega) hg (exec_onChips hx) h0
    (free_runnable h0 hg hx hinj) with ⟨s, st, h1, _⟩ | h1
  · obtain ⟨t, ht, hs⟩ := hslow
    unfold runSingle at h1
    obtain ⟨e, he, h1⟩ := Out.bind_eq_ok.mp h1
    cases e with
    | finished s' c' =>
      exact absurd he (C22_stuck fp dev cpt hcpt wl.golden ho wl t ht (hx t ht).bytes hs s' c')
    | limit _ _ => simp at h1
  · exact h1

/-- Three 64-byte packets and a multicast on a Wormhole card: the deadline is within the limit, and the
simulation returns statistics. -/
example : ∃ s st, runSingle .exact (wormhole .exact false 1) ⟨id, id⟩ 128 false smallRun = .ok (.inl (s, st)) := by
  refine C22_congestion_free 1 (by decide) .exact "wormhole_b0" _ rfl 128 (by decide) _ (fun _ => List.Perm.refl _)
    (fun _ => List.Perm.refl _) smallRun ?_ ?_ ?_ ?_ ?_ 7 ?_ ?_
  · have h := Workload.Dense.foldl [{ transfers := smallTransfers }] {} Workload.Dense.empty
    exact ⟨h.phaseIds, h.ids, h.gbl, h.phase⟩
  · exact oneGolden _
  · intro t ht
    rcases small_cases t ht with rfl | rfl
    · exact ⟨by decide, by decide, by decide, by unfold IsCore; decide,
        .core _ (by unfold IsCore; decide) rfl, fun h => absurd rfl h⟩
    · exact ⟨by decide, by decide, by decide, by unfold IsCore; decide,
        .rect _ (by unfold OnGrid; decide) (by unfold OnGrid; decide) (by decide) (by decide) rfl,
        fun h => absurd rfl h⟩
  · intro t ht
    rcases small_cases t ht with rfl | rfl <;> exact fun h => absurd h.1 (by decide)
  · intro t ht
    rcases small_cases t ht with rfl | rfl
    · exact ⟨by decide +kernel, 71 / 6, by decide +kernel, by decide +kernel⟩
    · exact ⟨by decide +kernel, 24, by decide +kernel, by decide +kernel⟩
  · intro t ht
    rcases small_cases t ht with rfl | rfl <;> decide
  · exact Or.inl (by decide +kernel)

/-- With timesteps of one cycle, a thousand packets of one byte never get through: the bandwidth of
about 0.07 bytes per cycle is rounded down to no byte in every timestep. -/
example : runSingle .exact (wormhole .exact false 1) ⟨id, id⟩ 1 false manyPackets =
    .ok (.inr .exceededSimCycleLimit) := by
  refine C22_stuck_error .exact "wormhole_b0" _ rfl 1 (by decide) (by decide) _ (fun _ => List.Perm.refl _)
    manyPackets ?_ ?_ ?_ ?_ ?_
  · have h := Workload.Dense.foldl [{ transfers := [tinyPackets] }] {} Workload.Dense.empty
    exact ⟨h.phaseIds, h.ids, h.gbl, h.phase⟩
  · exact oneGolden _
  · intro t ht
    rw [many_cases t ht]
    exact ⟨by decide, by decide, by decide, by unfold IsCore; decide,
        .core _ (by unfold IsCore; decide) rfl, fun h => absurd rfl h⟩
  · intro t ht
    rw [many_cases t ht]
    decide +kernel
  · refine ⟨_, List.mem_flatMap.mpr ⟨_, List.mem_singleton.mpr rfl, List.mem_singleton.mpr rfl⟩,
      18669 / 256000, ?_, ?_⟩ <;> decide +kernel

end NPE.Props
