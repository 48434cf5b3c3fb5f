import Verif.Proofs.Timeline
import Verif.Proofs.TotalApi

/-
Lemmas about writing the timeline of a completed run.
-/

namespace NPE
open Spec Out

theorem toI16_small {i : Nat} (h : i < 32768) : toI16 (i : Int) = i := by
  simp only [toI16]
  split <;> omega

theorem significant_lt {fp : FP} {grid : List ℚ} {e : Nat × ℚ} (h : e ∈ significant fp grid) :
    e.1 < grid.length := by
  unfold significant at h
  have := (List.of_mem_zip (List.mem_of_mem_filter h)).1
  exact List.mem_range.mp this

/-- A record whose grids fit the device can be written. -/
theorem emitTimestep_total {fp : FP} {dev : Device} (hd : DeviceOk dev) {gs : Groups} {r : TimestepStats}
    (h1 : r.niuGrid.length ≤ dev.niuTable.length) (h2 : r.linkGrid.length ≤ dev.linkTable.length) :
    ∃ e, emitTimestep fp dev gs r = .ok e := by
  have hl : dev.linkTable.length ≤ 32768 := by rw [dev.linkTable_length]; exact hd.ids
  have hn : dev.niuTable.length ≤ 32768 := by rw [dev.niuTable_length]; exact hd.ids
  unfold emitTimestep
  obtain ⟨a, ha⟩ := Out.mapM_total (f := fun (e : Nat × ℚ) => do
    let a ← dev.getNIUAttributes (toI16 (e.1 : Nat))
    return (a.coord, niuHop a.type, e.2)) (l := significant fp r.niuGrid) (by
      intro e he
      have hlt := significant_lt he
      unfold Device.getNIUAttributes
      rw [toI16_small (by omega), if_neg (by omega), Int.toNat_natCast, List.getElem?_eq_getElem (by omega)]
      exact ⟨_, rfl⟩)
  obtain ⟨b, hb⟩ := Out.mapM_total (f := fun (e : Nat × ℚ) => do
    let a ← dev.getLinkAttributes (toI16 (e.1 : Nat))
    return (a.coord, HopKind.link a.type, e.2)) (l := significant fp r.linkGrid) (by
      intro e he
      have hlt := significant_lt he
      unfold Device.getLinkAttributes
      rw [toI16_small (by omega), if_neg (by omega), Int.toNat_natCast, List.getElem?_eq_getElem (by omega)]
      exact ⟨_, rfl⟩)
  rw [ha, Out.bind_ok, hb, Out.bind_ok]
  exact ⟨_, rfl⟩

/-- What writing an entry needs to know about a transfer. -/
structure Writable (dev : Device) (t : TState) : Prop where
  dst : ∃ l, destinationList dev t.params.dst = .ok l
  route : ∃ as, Out.mapM dev.getLinkAttributes t.route = .ok as

theorem segmentOf_total {dev : Device} {t : TState} (h : Writable dev t) : ∃ sg, segmentOf dev t = .ok sg := by
  obtain ⟨⟨l, hl⟩, as, has⟩ := h
  unfold segmentOf
  rw [hl, Out.bind_ok, has, Out.bind_ok]
  exact ⟨_, rfl⟩

theorem partOf_sub {wl : Workload} {ts : List TState} {e : Int × List Int} {t : TState}
    (ht : t ∈ (partOf wl.numTransferGroups ts e).2) : t ∈ ts :=
  keyed_mem (mem_partOf.mp ht)

theorem emitGroup_total {dev : Device} {wl : Workload} {ts : List TState} (h : IdsArePositions ts)
    (hw : ∀ t ∈ ts, Writable dev t) (region : Option Region) {e : Int × List Int}
    (he : e ∈ (timelineGroups wl ts).members) : ∃ out, emitGroup dev ts region e = .ok out := by
  have hne := partOf_nonempty h he
  have hpos : 1 ≤ e.2.length := by
    have hc := components_ok h he
    unfold components at hc
    obtain ⟨l, h1, h2⟩ := Out.bind_eq_ok.mp hc
    have hlen := (Out.mapM_eq_ok.mp h1).length_eq
    have h3 := Out.ok.inj h2
    have h4 := (sortBy_perm (fun a b : TState => decide (a.params.groupIdx ≤ b.params.groupIdx)) l).length_eq
    rw [h3] at h4
    have := List.length_pos_iff.mpr hne
    omega
  unfold emitGroup
  simp only [hpos, decide_true, assert_true, bind_ok, components_ok h he]
  obtain ⟨first, hf⟩ : ∃ x, (partOf wl.numTransferGroups ts e).2.head? = some x := by
    cases hx : (partOf wl.numTransferGroups ts e).2 with
    | nil => exact absurd hx hne
    | cons a l => exact ⟨a, rfl⟩
  obtain ⟨last, hl⟩ : ∃ x, (partOf wl.numTransferGroups ts e).2.getLast? = some x :=
    ⟨_, List.getLast?_eq_some_getLast hne⟩
  rw [hf, hl]
  simp only
  split
  · obtain ⟨dst, hdst⟩ := (hw last (partOf_sub (List.mem_of_getLast? hl))).dst
    obtain ⟨rt, hrt⟩ := Out.mapM_total (f := segmentOf dev) (l := (partOf wl.numTransferGroups ts e).2)
      fun t ht => segmentOf_total (hw t (partOf_sub ht))
    rw [hdst, Out.bind_ok, hrt, Out.bind_ok]
    exact ⟨_, rfl⟩
  · exact ⟨_, rfl⟩

theorem serialize_total {fp : FP} {dev : Device} (hd : DeviceOk dev)
    {ord : List (Int × List Int) → List (Int × List Int)} (hord : ∀ l, (ord l).Perm l) {wl : Workload}
    {ts : List TState} {steps : List TimestepStats} (hids : IdsArePositions ts)
    (hreg : Registered wl.numTransferGroups ts) (hw : ∀ t ∈ ts, Writable dev t)
    (hst : ∀ r ∈ steps, r.niuGrid.length ≤ dev.niuTable.length ∧ r.linkGrid.length ≤ dev.linkTable.length)
    (region : Option Region) : ∃ tl, serializeV1 fp dev ord wl ts steps region = .ok tl := by
  unfold serializeV1
  simp only
  rw [checkGroups_ok hids hreg, Out.bind_ok]
  obtain ⟨trs, h1⟩ := Out.mapM_total (f := emitGroup dev ts region) (l := ord (timelineGroups wl ts).members)
    fun e he => emitGroup_total hids hw region ((hord _).mem_iff.mp he)
  obtain ⟨es, h2⟩ := Out.mapM_total (f := emitTimestep fp dev (timelineGroups wl ts))
    (l := steps.filter (listedStep region)) fun r hr => by
      obtain ⟨a, b⟩ := hst r (List.mem_of_mem_filter hr)
      exact emitTimestep_total hd a b
  rw [h1, Out.bind_ok, h2, Out.bind_ok]
  exact ⟨_, rfl⟩

/-- An executable transfer can be written. -/
theorem exec_writable {dev : Device} (hd : DeviceOk dev) {ord : List Int → List Int}
    (hord : ∀ l, (ord l).Perm l) (hsmall : dev.rows ≤ 32767 ∧ dev.cols ≤ 32767) {t : TState}
    (h : Executable dev t.params)
    (hr : dev.route ord t.params.noc t.params.src t.params.dst = .ok t.route) : Writable dev t := by
  constructor
  · have hdst := h.dst
    cases hdst' : t.params.dst with
    | unicast e => exact ⟨_, rfl⟩
    | mcast gs =>
      rw [hdst'] at hdst
      cases hdst with
      | rect g hlo hhi hrr hcc hdv =>
        have hrect : RectOk g := by
          obtain ⟨⟨a1, a2⟩, a3, a4⟩ := hlo
          obtain ⟨⟨b1, b2⟩, b3, b4⟩ := hhi
          exact ⟨hrr, hcc, by omega, by omega, by omega, by omega⟩
        have hmc : mcastCoords [g] = .ok (Spec.cells g) := by
          rw [mcastCoords_eq [g] (by intro g' hg'; simp only [List.mem_singleton] at hg'; rw [hg']; exact hrect)]
          simp
        obtain ⟨tys, htys⟩ := Out.mapM_total (f := dev.getCoreType) (l := Spec.cells g) (by
          intro c hc
          obtain ⟨c1, c2, c3⟩ := mem_cells.mp hc
          obtain ⟨⟨a1, a2⟩, a3, a4⟩ := hlo
          obtain ⟨⟨b1, b2⟩, b3, b4⟩ := hhi
          exact getCoreType_total ⟨⟨by omega, by omega⟩, by omega, by omega⟩)
        unfold destinationList mcastWorkers
        simp only
        rw [hmc, Out.bind_ok, htys, Out.bind_ok]
        exact ⟨_, rfl⟩
  · obtain ⟨r, h1, h2⟩ := exec_route hd hord h
    rw [hr] at h1
    rw [Out.ok.inj h1]
    refine Out.mapM_total fun i hi => ?_
    obtain ⟨a, ha, e⟩ := h2 i hi
    exact ⟨a, (dev.getLinkAttributes_eq i a).mpr ⟨ha, e⟩⟩

/-- The records that a run hands over. -/
structure GoodRecord (dev : Device) (n : Nat) (r : TimestepStats) : Prop where
  niu : r.niuGrid.length ≤ dev.niuTable.length
  link : r.linkGrid.length ≤ dev.linkTable.length
  live : ∀ id ∈ r.live, id < n

theorem goodRecord_empty (dev : Device) (n : Nat) : GoodRecord dev n {} :=
  ⟨Nat.zero_le _, Nat.zero_le _, by simp⟩

theorem forall2_right {α β : Type} {R : α → β → Prop} {l : List α} {m : List β} (h : List.Forall₂ R l m) {b : β}
    (hb : b ∈ m) : ∃ a ∈ l, R a b := forall₂_exists_of_mem_right h hb

/-- What is known about the transfers and the records of a completed run. -/
theorem run_written {fp : FP} {dev : Device} (hd : DeviceOk dev) {cpt : Nat} (hpos : 0 < cpt) {en : Bool}
    {ho : HashOrder} {wl : Workload} (hon : OnChips dev wl.transfers) {s : Sim} {st : Stats}
    (h : runSingle fp dev ho cpt en wl = .ok (.inl (s, st))) :
    IdsArePositions s.ts ∧
    (∀ t ∈ s.ts, t.params ∈ wl.transfers ∧
      dev.route ho.links t.params.noc t.params.src t.params.dst = .ok t.route) ∧
    (∀ e ∈ st, ∀ r ∈ e.2.steps, GoodRecord dev s.ts.length r) ∧
    ∃ ds, st.lookup MESH_DEVICE = some ds ∧ (MESH_DEVICE, ds) ∈ st := by
  obtain ⟨s0, c, h0, _, _, hs, _, _, hf⟩ := runSingle_ok h
  have hr := computeRates_ok fp dev en
  have hI := (initSim_ok h0).1
  have hinv := init_inv h0
  have hlen : s0.ts.length = s.ts.length := by
    apply le_antisymm
    · by_contra hlt
      push Not at hlt
      obtain ⟨t, b1, _⟩ := hs.static_get' hr hinv (List.getElem?_eq_getElem hlt)
      have := (List.getElem?_eq_some_iff.mp b1).1
      omega
    · by_contra hlt
      push Not at hlt
      obtain ⟨t, b1, _⟩ := hs.static_get hr hinv (List.getElem?_eq_getElem hlt)
      have := (List.getElem?_eq_some_iff.mp b1).1
      omega
  obtain ⟨hist, hi, hsz, hlv⟩ := run_statsInv hd hpos hon h0 hs
  refine ⟨?_, ?_, ?_, ?_⟩
  · intro i t hi
    obtain ⟨t0, b1, b2, _⟩ := hs.static_get hr hinv hi
    rw [← b2]; exact hI.dense i t0 b1
  · intro t ht
    obtain ⟨i, hi⟩ := List.mem_iff_getElem?.mp ht
    obtain ⟨t0, b1, b2, b3, _⟩ := hs.static_get hr hinv hi
    obtain ⟨c1, c2, _⟩ := hI.slots i t0 b1
    rw [← b2, ← b3]
    exact ⟨c1, c2⟩
  · intro e' he' r hr'
    obtain ⟨e, he, _, g, hg, _, _, _, _, hst⟩ := forall2_right (finish_ok hf) he'
    have hsteps := hi.steps e he g hg
    have hgood : ∀ r ∈ e.2.steps, GoodRecord dev s.ts.length r := by
      intro r hr
      rw [hsteps] at hr
      obtain ⟨x, _, rfl⟩ := List.mem_map.mp hr
      refine ⟨?_, ?_, ?_⟩
      · show (if e.1 = MESH_DEVICE then _ else _ : List ℚ).length ≤ _
        split
        · exact le_of_eq (hsz x.2).1
        · exact Nat.zero_le _
      · show (if e.1 = MESH_DEVICE then _ else _ : List ℚ).length ≤ _
        split
        · exact le_of_eq (hsz x.2).2.1
        · exact Nat.zero_le _
      · intro id hid
        have hid' : id ∈ (if e.1 = MESH_DEVICE then (hist x.2).2 else []) := hid
        split at hid'
        · rw [← hlen]; exact hlv x.2 id hid'
        · simp at hid'
    rw [hst] at hr'
    split at hr'
    · simp at hr'
    · unfold Stats.resize at hr'
      rcases List.mem_append.mp hr' with h1 | h1
      · exact hgood r (List.mem_of_mem_take h1)
      · rw [(List.mem_replicate.mp h1).2]
        exact goodRecord_empty _ _
  · have hk : MESH_DEVICE ∈ st.map (·.1) := by
      rw [finish_keys hf, hi.keys]; simp
    obtain ⟨⟨k, ds⟩, hm, hk⟩ := List.mem_map.mp hk
    simp only at hk
    subst hk
    have : ∀ l : Stats, (MESH_DEVICE, ds) ∈ l → ∃ ds', l.lookup MESH_DEVICE = some ds' ∧ (MESH_DEVICE, ds') ∈ l := by
      intro l
      induction l with
      | nil => simp
      | cons a l ih =>
        intro hm
        rw [List.lookup_cons]
        by_cases hk : a.1 = MESH_DEVICE
        · refine ⟨a.2, ?_, ?_⟩
          · simp [hk]
          · rw [← hk]; simp
        · have : (MESH_DEVICE == a.1) = false := by simp [Ne.symm hk]
          rw [this]
          rcases List.mem_cons.mp hm with e | hm
          · exact absurd (by rw [← e]) hk
          · obtain ⟨ds', h1, h2⟩ := ih hm
            exact ⟨ds', h1, List.mem_cons_of_mem _ h2⟩
    exact this st hm

end NPE
