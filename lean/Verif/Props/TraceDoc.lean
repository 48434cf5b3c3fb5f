import Verif.Spec.TraceDoc
import Verif.Props.Ingest

/-
Property C161: traces of the documented format are converted as documented.
-/

namespace NPE.Props
open NPE NPE.Spec

/-- C161 as it would be natural: a trace of the documented format becomes a workload with one transfer for each event that moves
data. -/
def C161_claim (fp : FP) (device : String) : Prop :=
  ∀ (path : String) (evs : List Json), evs ≠ [] → (∀ e ∈ evs, TraceDoc.InFormat e) → evs.Pairwise TraceDoc.Before →
    ∃ wl, convertTrace fp device path (.doc (.arr evs)) = .ok (some wl) ∧
      wl.transfers.map (·.eventType) = (evs.filter fun e => TraceDoc.Moves e).map Trace.type

/-- C161 is violated by every trace: without zones, which are not documented, the conversion dereferences a null pointer. -/
theorem C161_violated {fp : FP} {device path : String} {dev : Device} (hdev : createDeviceModel fp device = .ok dev) {evs : List Json}
    (hne : evs ≠ []) (hf : ∀ e ∈ evs, TraceDoc.InFormat e) : convertTrace fp device path (.doc (.arr evs)) = .ub := by
  cases evs with
  | nil => exact absurd rfl hne
  | cons e evs =>
    have hp := (hf e List.mem_cons_self).proc
    have hc : ∃ c, Trace.core e = some c := by
      unfold Trace.core
      rcases hp with h | h <;> rw [h] <;> exact ⟨_, rfl⟩
    obtain ⟨c, hc⟩ := hc
    refine C67_violated_first hdev hc fun t0 => ?_
    unfold Trace.zonesOf
    rw [List.filterMap_eq_nil_iff]
    intro x hx
    unfold Trace.zoneOf
    cases zonePhase? (x.strD "zone_phase") with
    | none => rfl
    | some p =>
      simp only
      rw [if_neg]
      rintro ⟨_, _, hz, _⟩
      exact hz (hf x hx).zone

/-- C161 is violated in every trace with zones as well: no documented write and no write with transaction id becomes a transfer. -/
theorem C161_ignored {fp : FP} {device path : String} {evs : List Json} {wl : Workload} (hplain : ∀ e ∈ evs, Trace.fabric e = none)
    (hne : evs ≠ []) (h : convertTrace fp device path (.doc (.arr evs)) = .ok (some wl)) :
    ∀ t ∈ wl.transfers, t.eventType ∉ TraceDoc.ignored := by
  intro t ht hi
  have hm := List.mem_map_of_mem (f := (·.eventType)) ht
  rw [C49_plain hplain hne h, List.mem_map] at hm
  obtain ⟨e, he, hte⟩ := hm
  have hc : Trace.Converts e := by simpa using (List.mem_filter.mp he).2
  have h1 := hc.1
  rw [hte] at h1
  have key : ∀ x ∈ TraceDoc.ignored, ¬ (x ∈ Trace.reads ∨ x ∈ Trace.writes ∨ x ∈ Trace.fabrics) := by decide
  exact key _ hi h1

/-- C161 for traces with zones and without the types that the conversion ignores (missing: these types, see `C161_ignored`, and
traces without zones, see `C161_violated`): there is one transfer for each event that moves data, in their order, and none for the
others. -/
theorem C161_partial {fp : FP} {device path : String} {evs : List Json} {wl : Workload} (hne : evs ≠ [])
    (hf : ∀ e ∈ evs, TraceDoc.IsZone e ∨ TraceDoc.InFormat e ∧ Trace.type e ∉ TraceDoc.ignored)
    (h : convertTrace fp device path (.doc (.arr evs)) = .ok (some wl)) :
    wl.transfers.map (·.eventType) = (evs.filter fun e => TraceDoc.Moves e).map Trace.type := by
  rw [C49_plain (fun e he => (hf e he).elim (·.2) (·.1.fabric)) hne h]
  congr 1
  refine List.filter_congr fun e he => ?_
  rw [decide_eq_decide]
  rcases hf e he with hz | ⟨hi, hig⟩
  · constructor
    · intro hc
      have h1 := hc.1
      rw [hz.1] at h1
      exact absurd h1 (by decide)
    · intro hm
      unfold TraceDoc.Moves at hm
      rw [hz.1] at hm
      exact absurd hm (by decide)
  · obtain ⟨r, hr⟩ := hi.known
    have key : ∀ x ∈ TraceDoc.types, x.1 ∉ TraceDoc.ignored →
        ((x.1 ∈ Trace.reads ∨ x.1 ∈ Trace.writes ∨ x.1 ∈ Trace.fabrics) ↔ (x.1, TraceDoc.Role.moves) ∈ TraceDoc.types) := by decide
    have hk := key _ hr hig
    constructor
    · exact fun hc => hk.mp hc.1
    · intro hm
      refine ⟨hk.mpr hm, ?_, fun h => hi.size (h.imp_right fun h => ?_), hi.corners⟩
      rotate_left
      · unfold TraceDoc.Moves at hm
        rw [h] at hm
        exact absurd hm (by decide)
      rcases hi.noc with h | h <;> rw [h] <;> decide

/-- In the documented order, the events between two of a core are of that core. -/
theorem core_between {x y e : Json} (h1 : TraceDoc.Before x y) (h2 : TraceDoc.Before y e) (h : TraceDoc.SameCore x e) :
    TraceDoc.SameCore y e := by
  obtain ⟨a, b, c⟩ := h
  unfold TraceDoc.Before at h1 h2
  have hx : y.intD "sx" (-1) = e.intD "sx" (-1) := by omega
  have hy : y.intD "sy" (-1) = e.intD "sy" (-1) := by omega
  refine ⟨hx, hy, ?_⟩
  have g1 : x.strD "proc" = "BRISC" ∧ y.strD "proc" = "NCRISC" ∨ x.strD "proc" = y.strD "proc" := by
    rcases h1 with h | ⟨_, h | ⟨_, h | h⟩⟩
    · omega
    · omega
    · exact Or.inl h
    · exact Or.inr h.1
  have g2 : y.strD "proc" = "BRISC" ∧ e.strD "proc" = "NCRISC" ∨ y.strD "proc" = e.strD "proc" := by
    rcases h2 with h | ⟨_, h | ⟨_, h | h⟩⟩
    · omega
    · omega
    · exact Or.inl h
    · exact Or.inr h.1
  rcases g2 with g2 | g2
  · rcases g1 with g1 | g1
    · rw [g1.2] at g2; exact absurd g2.1 (by decide)
    · rw [← g1, c]
  · exact g2

/-- The latest setter before an event, in the documented order, if its core has one. -/
theorem own_setter {setters : List String} {pre post : List Json} {e x : Json} (ho : (pre ++ e :: post).Pairwise TraceDoc.Before)
    (hx : x ∈ pre) (hset : Trace.type x ∈ setters) (hsame : TraceDoc.SameCore x e) :
    ∃ p1 y p2, pre = p1 ++ y :: p2 ∧ Trace.type y ∈ setters ∧ (∀ z ∈ p2, Trace.type z ∉ setters) ∧ TraceDoc.SameCore y e := by
  obtain ⟨hpre, _, hcross⟩ := List.pairwise_append.mp ho
  clear ho
  induction pre using List.reverseRecOn with
  | nil => cases hx
  | append_singleton l a ih =>
    obtain ⟨hl, _, hla⟩ := List.pairwise_append.mp hpre
    by_cases ha : Trace.type a ∈ setters
    · refine ⟨l, a, [], rfl, ha, fun z hz => absurd hz List.not_mem_nil, ?_⟩
      rcases List.mem_append.mp hx with hx | hx
      · exact core_between (hla x hx a (List.mem_singleton.mpr rfl)) (hcross a (by simp) e List.mem_cons_self) hsame
      · rw [← List.mem_singleton.mp hx]; exact hsame
    · have hx' : x ∈ l := by
        rcases List.mem_append.mp hx with hx | hx
        · exact hx
        · rw [List.mem_singleton.mp hx] at hset
          exact absurd hset ha
      obtain ⟨p1, y, p2, e1, e2, e3, e4⟩ := ih hx' hl fun u hu v hv => hcross u (List.mem_append_left _ hu) v hv
      refine ⟨p1, y, p2 ++ [a], by rw [e1]; simp, e2, fun z hz => ?_, e4⟩
      rcases List.mem_append.mp hz with hz | hz
      · exact e3 z hz
      · rw [List.mem_singleton.mp hz]; exact ha

/-- C161, stateful reads in the documented order: if the core has saved state before, data flows to the core that issued the read. -/
theorem C161_read {fp : FP} {device path : String} {pre post : List Json} {x e : Json} {wl : Workload}
    (ho : (pre ++ e :: post).Pairwise TraceDoc.Before) (hpaths : Trace.PathsComplete (pre ++ e :: post)) (hc : Trace.Converts e)
    (hf : Trace.fabric e = none) (hx : x ∈ pre) (hset : Trace.type x ∈ ["READ_SET_STATE", "READ_DRAM_SHARDED_SET_STATE"])
    (hsame : TraceDoc.SameCore x e)
    (he : Trace.type e ∈ ["READ_WITH_STATE", "READ_WITH_STATE_AND_TRID", "READ_DRAM_SHARDED_WITH_STATE"])
    (h : convertTrace fp device path (.doc (.arr (pre ++ e :: post))) = .ok (some wl)) :
    ∃ dev t0 t, createDeviceModel fp device = .ok dev ∧ wl.transfers[Trace.position dev.arch t0 pre]? = some t ∧
      t.dst = .unicast (Trace.coord (Trace.destChip e) (e.intD "sy" (-1)) (e.intD "sx" (-1))) := by
  obtain ⟨p1, y, p2, rfl, hy, hn, hcore⟩ := own_setter ho hx hset hsame
  obtain ⟨dev, t0, t, h1, h2, _, h4, _⟩ := C48_read hpaths hc hf hy hn he h
  rw [hcore.1, hcore.2.1] at h4
  exact ⟨dev, t0, t, h1, h2, h4⟩

/-- C161, stateful writes in the documented order: if the core has saved state before, data flows from the core that issued the
write. -/
theorem C161_write {fp : FP} {device path : String} {pre post : List Json} {x e : Json} {wl : Workload}
    (ho : (pre ++ e :: post).Pairwise TraceDoc.Before) (hpaths : Trace.PathsComplete (pre ++ e :: post)) (hc : Trace.Converts e)
    (hf : Trace.fabric e = none) (hx : x ∈ pre) (hset : Trace.type x = "WRITE_SET_STATE") (hsame : TraceDoc.SameCore x e)
    (he : Trace.type e = "WRITE_WITH_STATE")
    (h : convertTrace fp device path (.doc (.arr (pre ++ e :: post))) = .ok (some wl)) :
    ∃ dev t0 t, createDeviceModel fp device = .ok dev ∧ wl.transfers[Trace.position dev.arch t0 pre]? = some t ∧
      t.src = Trace.coord (Trace.chip e) (e.intD "sy" (-1)) (e.intD "sx" (-1)) := by
  obtain ⟨p1, y, p2, rfl, hy, hn, hcore⟩ := own_setter (setters := ["WRITE_SET_STATE"]) ho hx (List.mem_singleton.mpr hset) hsame
  obtain ⟨dev, t0, t, h1, h2, h3, _⟩ := C48_write hpaths hc hf (List.mem_singleton.mp hy)
    (fun z hz => fun hz' => hn z hz (List.mem_singleton.mpr hz')) he h
  rw [hcore.1, hcore.2.1] at h3
  exact ⟨dev, t0, t, h1, h2, h3⟩

/-! ### Example -/

/-- A trace as in the documentation: a read and a write of one core. -/
def docTrace : List Json := [moveTo 121 1 2 "READ" 0 1 4096, moveTo 152 1 2 "WRITE" 2 2 64, moveEv 160 1 2 "WRITE_BARRIER_START" []]

theorem docTrace_format : ∀ e ∈ docTrace, TraceDoc.InFormat e := by
  intro e he
  have key : ∀ e ∈ docTrace, (Trace.type e = "READ" ∨ Trace.type e = "WRITE" ∨ Trace.type e = "WRITE_BARRIER_START") ∧
      e.strD "proc" = "BRISC" ∧ e.strD "noc" = "NOC_0" ∧
      (Trace.type e = "READ" ∨ Trace.type e = "WRITE" → e.intD "num_bytes" 0 ≠ 0) ∧ Trace.type e ≠ "WRITE_MULTICAST" ∧
      e.strD "zone" = "" ∧ (Trace.fabric e).isNone = true := by decide +kernel
  obtain ⟨h1, h2, h3, h4, h5, h6, h7⟩ := key e he
  refine ⟨?_, Or.inl h2, Or.inl h3, h4, fun h => absurd h h5, h6, Option.isNone_iff_eq_none.mp h7⟩
  rcases h1 with h | h | h <;> unfold TraceDoc.Known <;> rw [h]
  · exact ⟨.moves, by decide⟩
  · exact ⟨.moves, by decide⟩
  · exact ⟨.syncs, by decide⟩

/-- C161 does not hold for any device. -/
theorem C161_false {fp : FP} {device : String} {dev : Device} (hdev : createDeviceModel fp device = .ok dev) : ¬ C161_claim fp device := by
  intro hc
  obtain ⟨wl, h, _⟩ := hc "t.json" docTrace (by decide) docTrace_format (by decide +kernel)
  rw [C161_violated hdev (by decide) docTrace_format] at h
  cases h

/-- With zones around it, the read is converted and the write is lost. -/
example : summary (convertTrace .exact "wormhole_b0" "t.json" (.doc (.arr
      (zoneEv 100 1 2 "k" "ZONE_START" :: docTrace ++ [zoneEv 200 1 2 "k" "ZONE_END"])))) =
    some [(⟨0, 1, 0⟩, .unicast ⟨0, 2, 1⟩, 4096, 21 + 270, "k[0]")] := by decide +kernel

/-- Two cores in the documented order, each with state of its own: the reads go to their own cores. -/
example :
    let evs := [zoneEv 1000 1 2 "k" "ZONE_START", moveTo 1010 1 2 "READ_SET_STATE" 0 1 4096, moveEv 1030 1 2 "READ_WITH_STATE" [],
      zoneEv 1040 1 2 "k" "ZONE_END", zoneEv 1000 1 3 "k" "ZONE_START", moveTo 1005 1 3 "READ_SET_STATE" 0 7 64,
      moveEv 1020 1 3 "READ_WITH_STATE" [], zoneEv 1040 1 3 "k" "ZONE_END"]
    evs.Pairwise TraceDoc.Before ∧ summary (convertTrace .exact "wormhole_b0" "t.json" (.doc (.arr evs))) =
      some [(⟨0, 1, 0⟩, .unicast ⟨0, 2, 1⟩, 4096, 30 + 270, "k[0]"), (⟨0, 7, 0⟩, .unicast ⟨0, 3, 1⟩, 64, 20 + 270, "k[0]")] := by
  decide +kernel

end NPE.Props
