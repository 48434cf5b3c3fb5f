import Verif.Proofs.Interleave
import Verif.Props.Convert
import Verif.Props.Zones
import Verif.Props.Fluid

/-
Property C153: how the events of different cores are interleaved in a trace does not matter.
-/

namespace NPE.Props
open Spec Out

/-! ### C153: interleaving -/

theorem groups_interleaved {evs evs' : List Json} (h : Trace.Interleaved evs evs') :
    Trace.groupsBefore evs' = Trace.groupsBefore evs := by
  have e : ∀ l, Trace.groupsBefore l = ((Trace.converted [] l).map ownPast).countP fun q => (Trace.fabric q.2).isSome := by
    intro l
    rw [List.countP_map]
    rfl
  rw [e, e]
  exact (converted_perm h).countP_eq _

theorem interleaved_origin {evs evs' : List Json} (h : Trace.Interleaved evs evs') :
    (evs'.foldl goldenEvent (2000000000000000000000000000000, [])).1 = (evs.foldl goldenEvent (2000000000000000000000000000000, [])).1 := by
  have hp := interleaved_perm h
  by_cases hne : evs = []
  · subst hne
    rw [List.Perm.eq_nil hp]
  · have hne' : evs' ≠ [] := fun h0 => hne (List.Perm.eq_nil (h0 ▸ hp.symm))
    exact origin_unique (origin_spec hne') (origin_mem (fun e => hp.mem_iff) (origin_spec hne))

/-- The windows, zones and groups of two conversions. -/
theorem interleaved_rest {fp : FP} {device path path' : String} {evs evs' : List Json} {wl wl' : Workload}
    (hi : Trace.Interleaved evs evs') (hp : Trace.PathsComplete evs) (hp' : Trace.PathsComplete evs')
    (h : convertTrace fp device path (.doc (.arr evs)) = .ok (some wl))
    (h' : convertTrace fp device path' (.doc (.arr evs')) = .ok (some wl')) :
    wl'.golden = wl.golden ∧ (∀ c, wl'.zones.lookup c = wl.zones.lookup c) ∧ wl'.numTransferGroups = wl.numTransferGroups := by
  obtain ⟨dev, m, zones, s, hdev, hm, hz, hs, hg, hzw, hgr, _, _⟩ := convertTrace_ok h
  obtain ⟨dev', m', zones', s', hdev', hm', hz', hs', hg', hzw', hgr', _, _⟩ := convertTrace_ok h'
  rw [hdev] at hdev'
  have hd := Out.ok.inj hdev'
  subst hd
  have T' := times_spec evs' 2000000000000000000000000000000
  rw [interleaved_origin hi] at hm' hz' hs'
  have hmem : ∀ e, e ∈ evs' ↔ e ∈ evs := fun e => (interleaved_perm hi).mem_iff
  refine ⟨?_, fun c => ?_, ?_⟩
  · rw [hg, hg', goldenDevices_mem hmem (times_spec evs 2000000000000000000000000000000) T' _ hm hm']
  · rw [hzw, hzw', extractZones_lookup hz, extractZones_lookup hz', zonesOf_interleaved hi]
  · rw [hgr, hgr', (convEvents_ok hp hs).groups, (convEvents_ok hp' hs').groups, groups_interleaved hi]

theorem paths_interleaved {evs evs' : List Json} (hi : Trace.Interleaved evs evs') (hp : Trace.PathsComplete evs) :
    Trace.PathsComplete evs' := fun e he => hp e ((interleaved_perm hi).mem_iff.mp he)

/-- C153 for all traces that can be converted: if the events of each core are the same in the same order, and the events
that use saved state find that of their own core, the two workloads have the same windows, the same zones of each core, and
the same transfers apart from their order; the groups of transfers may have other numbers.  (Missing: saved state of other
cores, and conversions of which one fails; in both cases it is violated.  The zones of the transfers: see `C153_partial`.) -/
theorem C153_transfers_partial (fp : FP) (device path path' : String) (evs evs' : List Json) (wl wl' : Workload)
    (hi : Trace.Interleaved evs evs') (ho : Trace.OwnState evs) (ho' : Trace.OwnState evs') (hp : Trace.PathsComplete evs)
    (h : convertTrace fp device path (.doc (.arr evs)) = .ok (some wl))
    (h' : convertTrace fp device path' (.doc (.arr evs')) = .ok (some wl')) :
    wl'.golden = wl.golden ∧ (∀ c, wl'.zones.lookup c = wl.zones.lookup c) ∧ wl'.numTransferGroups = wl.numTransferGroups ∧
    ∃ σ : Int → Int, Function.Injective σ ∧ (∀ g, g < 0 → σ g = g) ∧
      (wl'.transfers.map Trace.item).Perm ((wl.transfers.map Trace.item).map (Trace.regroup σ)) := by
  have hp' := paths_interleaved hi hp
  obtain ⟨r1, r2, r3⟩ := interleaved_rest hi hp hp' h h'
  refine ⟨r1, r2, r3, ?_⟩
  obtain ⟨dev, m, zones, s, hdev, _, _, hs, _, _, _, _, ht⟩ := convertTrace_ok h
  obtain ⟨dev', m', zones', s', hdev', _, _, hs', _, _, _, _, ht'⟩ := convertTrace_ok h'
  rw [hdev] at hdev'
  have hd := Out.ok.inj hdev'
  subst hd
  rw [interleaved_origin hi] at hs'
  obtain ⟨σ, h1, h2, h3⟩ := items_interleaved dev.arch (evs.foldl goldenEvent (2000000000000000000000000000000, [])).1 (fun _ => "") hi ho ho'
  refine ⟨σ, h1, h2, ?_⟩
  have h4 := h3.map Prod.fst
  rw [List.map_map] at h4
  have h5 : ∀ (l : List Json), ((Trace.converted [] l).flatMap fun q => (Trace.items dev.arch
      (evs.foldl goldenEvent (2000000000000000000000000000000, [])).1 q.1 q.2).map (·, "")).map Prod.fst =
      (Trace.converted [] l).flatMap fun q => Trace.items dev.arch (evs.foldl goldenEvent (2000000000000000000000000000000, [])).1 q.1 q.2 := by
    intro l
    rw [List.map_flatMap]
    congr 1
    funext q
    rw [List.map_map]
    exact List.map_id _
  have h6 : (Prod.fst ∘ regroupZ σ) = (Trace.regroup σ ∘ Prod.fst) := rfl
  rw [h6, ← List.map_map, h5, h5, ← (convEvents_ok hp hs).items, ← (convEvents_ok hp' hs').items] at h4
  rw [ht, ht', assignIds_map Trace.item (fun _ _ _ => rfl), assignIds_map Trace.item (fun _ _ _ => rfl)]
  exact h4

open Classical in
/-- The zones of an event. -/
noncomputable def zonePathOf (evs : List Json) (t0 : Int) (e : Json) : String :=
  if h : ∃ p, ∃ c, Trace.core e = some c ∧ Trace.ZonePath evs t0 c e p then h.choose else ""

theorem zonePathOf_eq {evs : List Json} {t0 : Int} {e : Json} {c : Coord × RiscType} {p : String} (hc : Trace.core e = some c)
    (h : Trace.ZonePath evs t0 c e p) : p = zonePathOf evs t0 e := by
  have hx : ∃ p, ∃ c, Trace.core e = some c ∧ Trace.ZonePath evs t0 c e p := ⟨p, c, hc, h⟩
  unfold zonePathOf
  rw [dif_pos hx]
  obtain ⟨c', hc', st', h1', h2'⟩ := hx.choose_spec
  rw [hc] at hc'
  rw [← Option.some.inj hc'] at h1'
  obtain ⟨st, h1, h2⟩ := h
  rw [h2, h2', C47_unique h1 h1']

/-- C153: if a trace is well formed, every core has zones and its events in the order of time, and the events that use saved
state find that of their own core in both traces, then both traces are converted, with the same windows, the same zones of
each core, and the same transfers in the same zones, apart from their order; the groups of transfers may have other numbers.
(Missing: saved state of other cores, and cores without zones; in both cases it is violated.) -/
theorem C153_partial (fp : FP) (device path path' : String) (dev : Device) (evs evs' : List Json)
    (hdev : createDeviceModel fp device = .ok dev) (hw : Trace.WellFormed dev.chips evs) (hord : Trace.InOrder evs)
    (hzones : ∀ e ∈ evs, ∀ c, Trace.core e = some c → c ≠ (⟨-1, -1, -1⟩, .brisc) ∧ ∀ t0, Trace.zonesOf evs t0 c ≠ [])
    (ha : dev.arch = .wormholeB0 ∨ ∀ e ∈ evs, ¬ Trace.UsesFabric e) (hp : Trace.PathsComplete evs)
    (hi : Trace.Interleaved evs evs') (ho : Trace.OwnState evs) (ho' : Trace.OwnState evs') :
    ∃ wl wl', convertTrace fp device path (.doc (.arr evs)) = .ok (some wl) ∧
      convertTrace fp device path' (.doc (.arr evs')) = .ok (some wl') ∧
      wl'.golden = wl.golden ∧ (∀ c, wl'.zones.lookup c = wl.zones.lookup c) ∧ wl'.numTransferGroups = wl.numTransferGroups ∧
      ∃ σ : Int → Int, Function.Injective σ ∧ (∀ g, g < 0 → σ g = g) ∧
        (wl'.transfers.map fun t => (Trace.item t, t.zonePath)).Perm
          (wl.transfers.map fun t => (Trace.regroup σ (Trace.item t), t.zonePath)) := by
  have hmem : ∀ e, e ∈ evs' ↔ e ∈ evs := fun e => (interleaved_perm hi).mem_iff
  have hp' := paths_interleaved hi hp
  have hw' : Trace.WellFormed dev.chips evs' := by
    refine ⟨?_, fun e he => hw.procs e ((hmem e).mp he), fun e he => hw.phases e ((hmem e).mp he), ?_,
      fun e he => hw.corners e ((hmem e).mp he), ?_, fun e he => hw.times e ((hmem e).mp he)⟩
    · obtain ⟨e, rest, c, hcons, _⟩ := hw.first
      cases he : evs' with
      | nil =>
        have := (hmem e).mpr (by rw [hcons]; exact List.mem_cons_self)
        rw [he] at this
        cases this
      | cons x l =>
        have hx : x ∈ evs := (hmem x).mp (by rw [he]; exact List.mem_cons_self)
        obtain ⟨c', hc'⟩ := hw.procs x hx
        refine ⟨x, l, c', rfl, hc', (hzones x hx c' hc').1, fun t0 => ?_⟩
        rw [← he, zonesOf_interleaved hi]
        exact (hzones x hx c' hc').2 t0
    · intro t0 ht0 c
      rw [zonesOf_interleaved hi]
      exact hw.nested t0 (origin_mem (fun e => (hmem e).symm) ht0) c
    · rcases hw.active with ⟨e, he, h⟩ | h
      · exact .inl ⟨e, (hmem e).mpr he, h⟩
      · refine .inr fun d h0 h1 => ?_
        obtain ⟨e, he, h2⟩ := h d h0 h1
        exact ⟨e, (hmem e).mpr he, h2⟩
  have ha' : dev.arch = .wormholeB0 ∨ ∀ e ∈ evs', ¬ Trace.UsesFabric e := ha.imp id fun h e he => h e ((hmem e).mp he)
  obtain ⟨wl, h⟩ := convertTrace_total hdev hw ha path
  obtain ⟨wl', h'⟩ := convertTrace_total hdev hw' ha' path'
  refine ⟨wl, wl', h, h', ?_⟩
  obtain ⟨r1, r2, r3⟩ := interleaved_rest hi hp hp' h h'
  refine ⟨r1, r2, r3, ?_⟩
  obtain ⟨dev1, m, zones, s, hdev1, _, hz, hs, _, _, _, _, ht⟩ := convertTrace_ok h
  obtain ⟨dev2, m', zones', s', hdev2, _, hz', hs', _, _, _, _, ht'⟩ := convertTrace_ok h'
  rw [hdev] at hdev1 hdev2
  have hd1 := Out.ok.inj hdev1
  have hd2 := Out.ok.inj hdev2
  subst hd1
  subst hd2
  rw [interleaved_origin hi] at hz' hs'
  obtain ⟨σ, h1, h2, h3⟩ := items_interleaved dev.arch (evs.foldl goldenEvent (2000000000000000000000000000000, [])).1
    (zonePathOf evs (evs.foldl goldenEvent (2000000000000000000000000000000, [])).1) hi ho ho'
  refine ⟨σ, h1, h2, ?_⟩
  have hzo : ∀ e ∈ evs, ∃ c, Trace.core e = some c ∧
      Trace.zonesOf evs (evs.foldl goldenEvent (2000000000000000000000000000000, [])).1 c ≠ [] := by
    intro e he
    obtain ⟨c, hc⟩ := hw.procs e he
    exact ⟨c, hc, (hzones e he c hc).2 _⟩
  have k := transfers_zoned hp hord hz hs hzo (zp := zonePathOf evs (evs.foldl goldenEvent (2000000000000000000000000000000, [])).1)
    fun e c p hc hz => zonePathOf_eq hc hz
  have k' := transfers_zoned hp' (inOrder_keys hi hord) hz' hs' (fun e he => by
      obtain ⟨c, hc, hne⟩ := hzo e ((hmem e).mp he)
      exact ⟨c, hc, by rwa [zonesOf_interleaved hi]⟩)
    (zp := zonePathOf evs (evs.foldl goldenEvent (2000000000000000000000000000000, [])).1)
    fun e c p hc hz => by
      refine zonePathOf_eq hc ?_
      unfold Trace.ZonePath at hz ⊢
      rwa [zonesOf_interleaved hi] at hz
  rw [← k, ← k', List.map_map] at h3
  rw [ht, ht', assignIds_map (fun t => (Trace.item t, t.zonePath)) (fun _ _ _ => rfl),
    assignIds_map (fun t => (Trace.regroup σ (Trace.item t), t.zonePath)) (fun _ _ _ => rfl)]
  exact h3

/-! ### Runs -/

/-- The places of a rearranged list. -/
theorem perm_places {α : Type} {l l' : List α} (h : l.Perm l') : ∃ f : Nat → Nat, Function.Injective f ∧ ∀ i, i < l.length → l'[f i]? = l[i]? := by
  induction h with
  | nil => exact ⟨id, Function.injective_id, fun _ _ => rfl⟩
  | cons x _ ih =>
    obtain ⟨f, h1, h2⟩ := ih
    refine ⟨fun i => match i with | 0 => 0 | i + 1 => f i + 1, ?_, ?_⟩
    · intro a b hab
      cases a <;> cases b <;> simp only at hab <;> try omega
      rw [h1 (Nat.succ.inj hab)]
    · intro i hi
      cases i with
      | zero => rfl
      | succ i => exact h2 i (by simpa using hi)
  | swap x y l =>
    refine ⟨fun i => match i with | 0 => 1 | 1 => 0 | i + 2 => i + 2, ?_, ?_⟩
    · intro a b hab
      rcases a with _ | _ | a <;> rcases b with _ | _ | b <;> simp only at hab <;> omega
    · intro i hi
      rcases i with _ | _ | i <;> rfl
  | trans _ _ ih1 ih2 =>
    obtain ⟨f, h1, h2⟩ := ih1
    obtain ⟨g, k1, k2⟩ := ih2
    refine ⟨g ∘ f, k1.comp h1, fun i hi => ?_⟩
    have h3 := h2 i hi
    rw [List.getElem?_eq_getElem hi] at h3
    obtain ⟨h4, _⟩ := List.getElem?_eq_some_iff.mp h3
    rw [Function.comp_apply, k2 _ h4, h2 i hi]

/-- Transfers with the same content. -/
theorem sameData_of_item {t u : Transfer} (h : Trace.item u = Trace.item t) (hz : u.zonePath = t.zonePath) : SameData t u := by
  unfold Trace.item at h
  simp only [Trace.Item.mk.injEq] at h
  obtain ⟨h1, h2, h3, h4, h5, h6, h7, h8, h9, h10, h11, h12⟩ := h
  unfold SameData
  cases t
  cases u
  simp only at *
  simp only [Transfer.mk.injEq]
  have e1 := Int.ofNat.inj h1
  have e3 := Int.ofNat.inj h3
  have e7 := Int.ofNat.inj h7
  simp_all

/-- Where the transfers of a workload are in a run. -/
theorem params_at {fp : FP} {dev : Device} {ho : HashOrder} {wl : Workload} {s : Sim} (h : initSim fp dev ho wl = .ok s) (hw : wl.Dense)
    {i : Nat} {t : TState} (ht : s.ts[i]? = some t) : wl.transfers[i]? = some t.params := by
  have hI := (initSim_ok h).1
  obtain ⟨k, hk⟩ := List.mem_iff_getElem?.mp (hI.slots i t ht).1
  have h1 := dense_id hw k _ hk
  have h2 := hI.dense i t ht
  have : k = i := by omega
  rw [← this]
  exact hk

/-- No two transfers of a queue are scheduled for the same cycle. -/
def NoTies (dev : Device) (s0 : Sim) : Prop :=
  ∀ (i j : Nat) (t u : TState), s0.ts[i]? = some t → s0.ts[j]? = some u → SameLane dev t u → t.params.offset = u.params.offset → i = j

/-- The run of a workload contains that of the same transfers in another order. -/
theorem embeds_of_perm {fp : FP} {dev : Device} {ho ho' : HashOrder} {wl wl' : Workload} {s0 s0' : Sim}
    (h0 : initSim fp dev ho wl = .ok s0) (h0' : initSim fp dev ho' wl' = .ok s0') (hD : wl.Dense) (hD' : wl'.Dense)
    (hsame : (wl'.transfers.map fun t => (Trace.item t, t.zonePath)).Perm (wl.transfers.map fun t => (Trace.item t, t.zonePath)))
    (hg : ∀ t ∈ wl.transfers, t.groupId = -1) (hN : NoTies dev s0) : ∃ f, Embeds dev s0 s0' f ∧ s0'.ts.length = s0.ts.length ∧
      ∀ i t, wl.transfers[i]? = some t → ∃ t', wl'.transfers[f i]? = some t' ∧ SameData t t' := by
  obtain ⟨f, hf, hp⟩ := perm_places hsame.symm
  have hl := hsame.length_eq
  rw [List.length_map, List.length_map] at hl
  have hlen : s0'.ts.length = s0.ts.length := by rw [(initSim_ok h0).1.len, (initSim_ok h0').1.len, hl]
  refine ⟨f, ⟨⟨hf, fun i t ht => ?_⟩, fun i j t u ht hu hr hij => ?_⟩, hlen, fun i t ht => ?_⟩
  · have h1 := params_at h0 hD ht
    have hi := (List.getElem?_eq_some_iff.mp h1).1
    have h2 := hp i (by rwa [List.length_map])
    rw [List.getElem?_map, List.getElem?_map, h1, Option.map_some, Option.map_eq_some_iff] at h2
    obtain ⟨u, hu, h3⟩ := h2
    have hlt : f i < s0'.ts.length := by rw [(initSim_ok h0').1.len]; exact (List.getElem?_eq_some_iff.mp hu).1
    refine ⟨s0'.ts[f i], List.getElem?_eq_getElem hlt, ?_⟩
    have h4 := params_at h0' hD' (List.getElem?_eq_getElem hlt)
    rw [hu] at h4
    rw [← Option.some.inj h4]
    exact sameData_of_item (Prod.mk.inj h3).1 (Prod.mk.inj h3).2
  · rcases hr with ⟨h1, h2⟩ | ⟨_, _, h3⟩
    · exact absurd (hN i j t u ht hu h1 h2) (by omega)
    · exact absurd (hg _ ((initSim_ok h0).1.slots i t ht).1) h3
  · have hi := (List.getElem?_eq_some_iff.mp ht).1
    have h2 := hp i (by rwa [List.length_map])
    rw [List.getElem?_map, List.getElem?_map, ht, Option.map_some, Option.map_eq_some_iff] at h2
    obtain ⟨u, hu, h3⟩ := h2
    exact ⟨u, hu, sameData_of_item (Prod.mk.inj h3).1 (Prod.mk.inj h3).2⟩

theorem parents_plain {fp : FP} {dev : Device} {ho : HashOrder} {wl : Workload} {s0 : Sim} (h0 : initSim fp dev ho wl = .ok s0)
    (hg : ∀ t ∈ wl.transfers, t.groupId = -1) : ParentsFound s0 := by
  intro i t ht hn
  exact absurd (hg _ ((initSim_ok h0).1.slots i t ht).1) (by unfold NamesParent at hn; simp_all)


/-- C153 for runs without congestion model, with any rounding: workloads with the same transfers in another order, as the
conversion of interleaved traces without fabric paths gives them, have the same run: every transfer starts and ends at the
same cycles, and the clock stops at the same time, if no two transfers of a queue are scheduled for the same cycle.  (Missing:
those, where it is violated (C118), and transfer groups.) -/
theorem C153_runs_alone_partial (fp : FP) (dev : Device) (cpt : Nat) (hpos : 0 < cpt) (hcpt : cpt < 4244967296)
    (golden golden' : GoldenMap) (links : List Int → List Int) (b b' : List BucketKey → List BucketKey)
    (hb : ∀ l, (b l).Perm l) (hb' : ∀ l, (b' l).Perm l) (wl wl' : Workload) (hD : wl.Dense) (hD' : wl'.Dense)
    (hsame : (wl'.transfers.map fun t => (Trace.item t, t.zonePath)).Perm (wl.transfers.map fun t => (Trace.item t, t.zonePath)))
    (hg : ∀ t ∈ wl.transfers, t.groupId = -1) (s0 s0' : Sim)
    (h0 : initSim fp dev ⟨links, b⟩ wl = .ok s0) (h0' : initSim fp dev ⟨links, b'⟩ wl' = .ok s0') (hN : NoTies dev s0)
    (e : Ending) (s' : Sim) (c' : Nat) (h : runLoop (simConfig fp dev cpt golden false) ⟨links, b⟩ wl = .ok e)
    (h' : runLoop (simConfig fp dev cpt golden' false) ⟨links, b'⟩ wl' = .ok (.finished s' c')) :
    ∃ f : Nat → Nat, Function.Injective f ∧
      (∀ i t, wl.transfers[i]? = some t → ∃ t', wl'.transfers[f i]? = some t' ∧ SameData t t') ∧
      ∃ s, e = .finished s c' ∧ ∀ (i : Nat) (t : TState), s.ts[i]? = some t →
        ∃ t', s'.ts[f i]? = some t' ∧ t'.start = t.start ∧ t'.endc = t.endc := by
  obtain ⟨f, hE, hlen, hf⟩ := embeds_of_perm h0 h0' hD hD' hsame hg hN
  exact ⟨f, hE.inj, hf, C118_alone_partial fp dev cpt hpos hcpt golden golden' links b b' hb hb' wl wl' s0 s0' h0 h0' f hE hlen
    (parents_plain h0 hg) e s' c' h h'⟩

/-- C153 for runs with congestion model, in exact arithmetic (missing: rounding, and what is missing without congestion
model). -/
theorem C153_runs_partial (dev : Device) (hdev : DeviceOk dev) (hT : TableOk .exact dev.tbt) (cpt : Nat)
    (hpos : 0 < cpt) (hcpt : cpt < 4244967296)
    (golden golden' : GoldenMap) (links : List Int → List Int) (b b' : List BucketKey → List BucketKey)
    (hb : ∀ l, (b l).Perm l) (hb' : ∀ l, (b' l).Perm l) (wl wl' : Workload) (hD : wl.Dense) (hD' : wl'.Dense)
    (hw : ∀ t ∈ wl.transfers, 0 ≤ t.injectionRate ∧ RectsOk t)
    (hsame : (wl'.transfers.map fun t => (Trace.item t, t.zonePath)).Perm (wl.transfers.map fun t => (Trace.item t, t.zonePath)))
    (hg : ∀ t ∈ wl.transfers, t.groupId = -1) (s0 s0' : Sim)
    (h0 : initSim .exact dev ⟨links, b⟩ wl = .ok s0) (h0' : initSim .exact dev ⟨links, b'⟩ wl' = .ok s0') (hN : NoTies dev s0)
    (e : Ending) (s' : Sim) (c' : Nat) (h : runLoop (simConfig .exact dev cpt golden true) ⟨links, b⟩ wl = .ok e)
    (h' : runLoop (simConfig .exact dev cpt golden' true) ⟨links, b'⟩ wl' = .ok (.finished s' c')) :
    ∃ f : Nat → Nat, Function.Injective f ∧
      (∀ i t, wl.transfers[i]? = some t → ∃ t', wl'.transfers[f i]? = some t' ∧ SameData t t') ∧
      ∃ s, e = .finished s c' ∧ ∀ (i : Nat) (t : TState), s.ts[i]? = some t →
        ∃ t', s'.ts[f i]? = some t' ∧ t'.start = t.start ∧ t'.endc = t.endc := by
  obtain ⟨f, hE, hlen, hf⟩ := embeds_of_perm h0 h0' hD hD' hsame hg hN
  have hw' : ∀ t ∈ wl'.transfers, 0 ≤ t.injectionRate ∧ RectsOk t := by
    intro t ht
    have h1 : (Trace.item t, t.zonePath) ∈ wl.transfers.map fun t => (Trace.item t, t.zonePath) :=
      hsame.mem_iff.mp (List.mem_map_of_mem ht)
    obtain ⟨u, hu, h2⟩ := List.mem_map.mp h1
    have h3 := hw u hu
    have h4 := (Prod.mk.inj h2).1
    unfold Trace.item at h4
    simp only [Trace.Item.mk.injEq] at h4
    unfold RectsOk at h3 ⊢
    rw [← h4.2.2.2.2.2.1, ← h4.2.2.2.2.1]
    exact h3
  exact ⟨f, hE.inj, hf, C118_shared_partial dev hdev hT cpt hpos hcpt golden golden' links b b' hb hb' wl wl' hw hw' s0 s0' h0 h0' f hE
    hlen (parents_plain h0 hg) e s' c' h h'⟩

/-- Two transfers of different cores in both orders: they share a link and slow each other down, but have the same run. -/
example : times Sample.dev ⟨id, id⟩ [east, south] true = some (128, [(0, 55), (0, 77)]) ∧
    times Sample.dev ⟨id, id⟩ [south, east] true = some (128, [(0, 77), (0, 55)]) := by decide +kernel

/-! ### Examples and violations -/


/-- The events of core (1, 2): the beginning of a zone, saving of state and a write that uses it. -/
def firstCore : List Json := [zoneEv 100 1 2 "k" "ZONE_START", moveTo 110 1 2 "WRITE_SET_STATE" 2 2 64, moveEv 120 1 2 "WRITE_WITH_STATE" []]

/-- The events of core (3, 4): the same. -/
def secondCore : List Json := [zoneEv 100 3 4 "m" "ZONE_START", moveTo 115 3 4 "WRITE_SET_STATE" 5 4 32, moveEv 140 3 4 "WRITE_WITH_STATE" []]

/-- One core after the other. -/
def oneByOne : List Json := firstCore ++ secondCore

/-- In the order of time. -/
def byTime : List Json :=
  [zoneEv 100 1 2 "k" "ZONE_START", zoneEv 100 3 4 "m" "ZONE_START", moveTo 110 1 2 "WRITE_SET_STATE" 2 2 64,
   moveTo 115 3 4 "WRITE_SET_STATE" 5 4 32, moveEv 120 1 2 "WRITE_WITH_STATE" [], moveEv 140 3 4 "WRITE_WITH_STATE" []]

/-- The other core first, but its zone even earlier. -/
def otherFirst : List Json :=
  [zoneEv 100 3 4 "m" "ZONE_START", zoneEv 100 1 2 "k" "ZONE_START", moveTo 115 3 4 "WRITE_SET_STATE" 5 4 32,
   moveEv 140 3 4 "WRITE_WITH_STATE" [], moveTo 110 1 2 "WRITE_SET_STATE" 2 2 64, moveEv 120 1 2 "WRITE_WITH_STATE" []]

theorem cores_of : (∀ e ∈ firstCore, Trace.core e = some (⟨0, 2, 1⟩, .brisc)) ∧ ∀ e ∈ secondCore, Trace.core e = some (⟨0, 4, 3⟩, .brisc) := by
  decide +kernel

theorem byTime_interleaved : Trace.Interleaved oneByOne byTime := by
  obtain ⟨h1, h2⟩ := cores_of
  simp only [firstCore, secondCore, List.forall_mem_cons, List.not_mem_nil, false_imp_iff, implies_true, and_true] at h1 h2
  obtain ⟨a, b, c⟩ := h1
  obtain ⟨x, y, z⟩ := h2
  intro k
  simp only [oneByOne, firstCore, secondCore, byTime, List.cons_append, List.nil_append, List.filter_cons, List.filter_nil, a, b, c, x, y, z]
  by_cases h : some ((⟨0, 2, 1⟩, .brisc) : Coord × RiscType) = k
  · subst h
    rfl
  · simp only [h, decide_false, Bool.false_eq_true, if_false]

theorem otherFirst_interleaved : Trace.Interleaved oneByOne otherFirst := by
  obtain ⟨h1, h2⟩ := cores_of
  simp only [firstCore, secondCore, List.forall_mem_cons, List.not_mem_nil, false_imp_iff, implies_true, and_true] at h1 h2
  obtain ⟨a, b, c⟩ := h1
  obtain ⟨x, y, z⟩ := h2
  intro k
  simp only [oneByOne, firstCore, secondCore, otherFirst, List.cons_append, List.nil_append, List.filter_cons, List.filter_nil, a, b, c, x, y, z]
  by_cases h : some ((⟨0, 2, 1⟩, .brisc) : Coord × RiscType) = k
  · subst h
    rfl
  · simp only [h, decide_false, Bool.false_eq_true, if_false]

/-- C153 is violated: state that one core saves is used by another one.  With the events of both cores in the order of time,
the write of core (1, 2) starts at core (3, 4), goes elsewhere, and has another size. -/
theorem C153_violated :
    Trace.Interleaved oneByOne byTime ∧
    summary (convertTrace .exact "wormhole_b0" "t.json" (.doc (.arr oneByOne))) = some
      [(⟨0, 2, 1⟩, .unicast ⟨0, 2, 2⟩, 64, 70, "k[0]"), (⟨0, 4, 3⟩, .unicast ⟨0, 4, 5⟩, 32, 100, "m[0]")] ∧
    summary (convertTrace .exact "wormhole_b0" "t.json" (.doc (.arr byTime))) = some
      [(⟨0, 4, 3⟩, .unicast ⟨0, 4, 5⟩, 32, 80, "k[0]"), (⟨0, 4, 3⟩, .unicast ⟨0, 4, 5⟩, 32, 100, "m[0]")] :=
  ⟨byTime_interleaved, by constructor <;> decide +kernel⟩

/-- C153 is violated for cores without zones: with such an event at the beginning, the conversion is undefined behaviour. -/
theorem C153_violated_zones :
    (summary (convertTrace .exact "wormhole_b0" "t.json" (.doc (.arr
      [zoneEv 100 1 2 "k" "ZONE_START", moveTo 105 3 4 "WRITE_" 2 2 64])))).isSome = true ∧
    convertTrace .exact "wormhole_b0" "t.json" (.doc (.arr
      [moveTo 105 3 4 "WRITE_" 2 2 64, zoneEv 100 1 2 "k" "ZONE_START"])) = .ub :=
  ⟨by decide +kernel, C67_violated_first (c := (⟨0, 4, 3⟩, .brisc)) rfl (by decide +kernel) fun t0 => by
    unfold Trace.zonesOf
    have h1 : Trace.core (moveTo 105 3 4 "WRITE_" 2 2 64) = some (⟨0, 4, 3⟩, .brisc) := by decide +kernel
    have h2 : Trace.core (zoneEv 100 1 2 "k" "ZONE_START") = some (⟨0, 2, 1⟩, .brisc) := by decide +kernel
    have h3 : zonePhase? ((moveTo 105 3 4 "WRITE_" 2 2 64).strD "zone_phase") = none := by decide +kernel
    rw [List.filterMap_cons, List.filterMap_cons, zoneOf_core (e := zoneEv 100 1 2 "k" "ZONE_START") (by rw [h2]; decide)]
    have h4 : Trace.zoneOf t0 (⟨0, 4, 3⟩, .brisc) (moveTo 105 3 4 "WRITE_" 2 2 64) = none := by
      unfold Trace.zoneOf
      rw [h3]
    rw [h4]
    rfl⟩

/-- A way to check that state is of the own core. -/
theorem latest_own {S : List String} {pre : List Json} {e x : Json} (h : Trace.latest S pre = some x) (hc : Trace.core x = Trace.core e) :
    Trace.latest S pre = Trace.latest S (pre.filter fun x => Trace.core x = Trace.core e) := by
  rw [h]
  unfold Trace.latest at h ⊢
  rw [← List.filter_reverse]
  generalize pre.reverse = l at h
  induction l with
  | nil => cases h
  | cons a l ih =>
    by_cases ha : Trace.type a ∈ S
    · rw [List.find?_cons_of_pos (by simpa using ha)] at h
      have := Option.some.inj h
      subst this
      rw [List.filter_cons_of_pos (by simpa using hc), List.find?_cons_of_pos (by simpa using ha)]
    · rw [List.find?_cons_of_neg (by simpa using ha)] at h
      by_cases hp : Trace.core a = Trace.core e
      · rw [List.filter_cons_of_pos (by simpa using hp), List.find?_cons_of_neg (by simpa using ha)]
        exact ih h
      · rw [List.filter_cons_of_neg (by simpa using hp)]
        exact ih h

theorem ownState_of_check {evs : List Json} (h : (List.range evs.length).all (fun i => match evs[i]? with
    | none => true
    | some e => (decide (Trace.type e ∉ Trace.readUsers) || decide ((Trace.latest Trace.readSetters (evs.take i)).map Trace.core = some (Trace.core e))) &&
      (decide (Trace.type e ∉ Trace.writeUsers) || decide ((Trace.latest Trace.writeSetters (evs.take i)).map Trace.core = some (Trace.core e)))) = true) :
    Trace.OwnState evs := by
  intro pre e post he
  have hk := List.all_eq_true.mp h pre.length (List.mem_range.mpr (by rw [he]; simp))
  have h1 : evs[pre.length]? = some e := by rw [he]; simp
  have h2 : evs.take pre.length = pre := by rw [he]; simp
  rw [h1, h2] at hk
  simp only [Bool.and_eq_true, Bool.or_eq_true, decide_eq_true_eq] at hk
  refine ⟨fun ht => ?_, fun ht => ?_⟩
  · obtain ⟨x, hx, hc⟩ := Option.map_eq_some_iff.mp (hk.1.resolve_left fun h => h ht)
    exact latest_own hx hc
  · obtain ⟨x, hx, hc⟩ := Option.map_eq_some_iff.mp (hk.2.resolve_left fun h => h ht)
    exact latest_own hx hc

/-- The trace in the order of time uses the state of another core. -/
example : ¬ Trace.OwnState byTime := by
  intro h
  have := (h (byTime.take 4) (moveEv 120 1 2 "WRITE_WITH_STATE" []) (byTime.drop 5) rfl).2 (by decide +kernel)
  have h2 := congrArg (Option.map Trace.core) this
  revert h2
  decide +kernel

theorem oneByOne_zones (t0 : Int) (c : Coord × RiscType) : Trace.zonesOf oneByOne t0 c =
    if c = (⟨0, 2, 1⟩, .brisc) then [⟨100 - t0, "k", .zoneStart⟩]
    else if c = (⟨0, 4, 3⟩, .brisc) then [⟨100 - t0, "m", .zoneStart⟩] else [] := by
  have hz : ∀ x y n, (zoneEv 100 x y n "ZONE_START").intD "sx" (-1) ≠ -1 → (zoneEv 100 x y n "ZONE_START").intD "sy" (-1) ≠ -1 →
      n ≠ "" → Trace.zoneOf t0 c (zoneEv 100 x y n "ZONE_START") =
      if Trace.core (zoneEv 100 x y n "ZONE_START") = some c then some ⟨100 - t0, n, .zoneStart⟩ else none := by
    intro x y n h1 h2 h3
    unfold Trace.zoneOf
    rw [show zonePhase? ((zoneEv 100 x y n "ZONE_START").strD "zone_phase") = some .zoneStart from rfl]
    simp only
    by_cases hc : Trace.core (zoneEv 100 x y n "ZONE_START") = some c
    · rw [if_pos hc, if_pos ⟨h1, h2, h3, hc⟩]; rfl
    · rw [if_neg hc, if_neg fun h => hc h.2.2.2]
  have hn : ∀ e ∈ [moveTo 110 1 2 "WRITE_SET_STATE" 2 2 64, moveEv 120 1 2 "WRITE_WITH_STATE" [],
      moveTo 115 3 4 "WRITE_SET_STATE" 5 4 32, moveEv 140 3 4 "WRITE_WITH_STATE" []], Trace.zoneOf t0 c e = none := by
    intro e he
    have h0 : ∀ e ∈ [moveTo 110 1 2 "WRITE_SET_STATE" 2 2 64, moveEv 120 1 2 "WRITE_WITH_STATE" [],
      moveTo 115 3 4 "WRITE_SET_STATE" 5 4 32, moveEv 140 3 4 "WRITE_WITH_STATE" []], zonePhase? (e.strD "zone_phase") = none := by
      decide +kernel
    unfold Trace.zoneOf
    rw [h0 e he]
  have k1 : Trace.core (zoneEv 100 1 2 "k" "ZONE_START") = some (⟨0, 2, 1⟩, .brisc) := by decide +kernel
  have k2 : Trace.core (zoneEv 100 3 4 "m" "ZONE_START") = some (⟨0, 4, 3⟩, .brisc) := by decide +kernel
  unfold Trace.zonesOf oneByOne firstCore secondCore
  simp only [List.cons_append, List.nil_append, List.filterMap_cons, List.filterMap_nil, hn _ (.head _), hn _ (.tail _ (.head _)),
    hn _ (.tail _ (.tail _ (.head _))), hn _ (.tail _ (.tail _ (.tail _ (.head _)))), hz 1 2 "k" (by decide +kernel) (by decide +kernel) (by decide),
    hz 3 4 "m" (by decide +kernel) (by decide +kernel) (by decide), k1, k2]
  by_cases h1 : c = (⟨0, 2, 1⟩, .brisc)
  · subst h1
    simp
  · by_cases h2 : c = (⟨0, 4, 3⟩, .brisc)
    · subst h2
      simp
    · rw [if_neg fun h => h1 (Option.some.inj h).symm, if_neg fun h => h2 (Option.some.inj h).symm, if_neg h1, if_neg h2]

theorem oneByOne_wellFormed : Trace.WellFormed 1 oneByOne where
  first := ⟨_, _, (⟨0, 2, 1⟩, .brisc), rfl, by decide +kernel, by decide, fun t0 => by rw [oneByOne_zones, if_pos rfl]; simp⟩
  procs := by
    intro e he
    have h : ∀ e ∈ oneByOne, (Trace.core e).isSome = true := by decide +kernel
    exact Option.isSome_iff_exists.mp (h e he)
  phases := by decide +kernel
  nested := by
    intro t0 _ c
    rw [oneByOne_zones]
    split
    · exact ⟨_, .opened ⟨100 - t0, "k", .zoneStart⟩ .nil (.closed .nil) rfl⟩
    · split
      · exact ⟨_, .opened ⟨100 - t0, "m", .zoneStart⟩ .nil (.closed .nil) rfl⟩
      · exact ⟨[], .closed .nil⟩
  corners := by
    intro e he g hg
    have h : ∀ e ∈ oneByOne, Trace.type e ≠ "WRITE_MULTICAST" := by decide +kernel
    unfold Trace.dest at hg
    simp only at hg
    rw [if_neg (h e he)] at hg
    exact absurd hg nofun
  active := Or.inr fun d h0 h1 => by
    have : d = 0 := by omega
    subst this
    exact ⟨_, List.mem_cons_self, by decide +kernel⟩
  times := by decide +kernel

/-- Both orders of the cores give the same transfers. -/
example : ∃ wl wl', convertTrace .exact "wormhole_b0" "a.json" (.doc (.arr oneByOne)) = .ok (some wl) ∧
    convertTrace .exact "wormhole_b0" "b.json" (.doc (.arr otherFirst)) = .ok (some wl') ∧ wl'.golden = wl.golden := by
  obtain ⟨wl, wl', h1, h2, h3, _⟩ := C153_partial .exact "wormhole_b0" "a.json" "b.json" (wormhole .exact false 1) oneByOne otherFirst rfl
    oneByOne_wellFormed (by unfold Trace.InOrder; decide +kernel) (fun e he c hc => by
      have hcs : ∀ e ∈ oneByOne, Trace.core e = some (⟨0, 2, 1⟩, .brisc) ∨ Trace.core e = some (⟨0, 4, 3⟩, .brisc) := by decide +kernel
      rcases hcs e he with h | h <;>
      · rw [hc] at h
        have := Option.some.inj h
        subst this
        exact ⟨by decide, fun t0 => by rw [oneByOne_zones]; simp⟩)
    (.inl rfl) (fun e he f hf => by
      have hn : ∀ e ∈ oneByOne, Trace.fabric e = none := by decide +kernel
      rw [hn e he] at hf
      cases hf)
    otherFirst_interleaved (ownState_of_check (by decide +kernel)) (ownState_of_check (by decide +kernel))
  exact ⟨wl, wl', h1, h2, h3⟩

example : summary (convertTrace .exact "wormhole_b0" "t.json" (.doc (.arr otherFirst))) = some
      [(⟨0, 4, 3⟩, .unicast ⟨0, 4, 5⟩, 32, 100, "m[0]"), (⟨0, 2, 1⟩, .unicast ⟨0, 2, 2⟩, 64, 70, "k[0]")] := by decide +kernel

end NPE.Props
