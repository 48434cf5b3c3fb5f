import Verif.Props.Fabric
import Verif.Props.Ingest
import Verif.Proofs.TotalApi
import Mathlib.Data.String.Basic

/-
The fabric script as a whole, and traces that are first processed by the script and then converted
(C52, C58, C67, C77).
-/

namespace NPE.Props
open Spec Out NPE.Fabric NPE.Spec.Fabric

/-! ### The order of the events -/

theorem needInt_ok {e : Json} {k : String} {n : Int} (h : needInt e k = .ok n) : e.field k = some (.int n) := by
  unfold needInt at h
  rw [bind_eq_ok] at h
  obtain ⟨v, hv, h⟩ := h
  rw [need_ok hv]
  cases v with
  | int m => rw [Out.ok.inj h]
  | _ => exact absurd h nofun

theorem needStr_ok {e : Json} {k : String} {n : String} (h : needStr e k = .ok n) : e.field k = some (.str n) := by
  unfold needStr at h
  rw [bind_eq_ok] at h
  obtain ⟨v, hv, h⟩ := h
  rw [need_ok hv]
  cases v with
  | str m => rw [Out.ok.inj h]
  | _ => exact absurd h nofun

theorem needArr_ok {e : Json} {k : String} {l : List Json} (h : needArr e k = .ok l) : e.field k = some (.arr l) := by
  unfold needArr at h
  rw [bind_eq_ok] at h
  obtain ⟨v, hv, h⟩ := h
  rw [need_ok hv]
  cases v with
  | arr m => rw [Out.ok.inj h]
  | _ => exact absurd h nofun

theorem keyOf_ok {e : Json} {k : Key} (h : keyOf e = .ok k) :
    e.field "src_device_id" = some (.int k.dev) ∧ e.field "sx" = some (.int k.sx) ∧ e.field "sy" = some (.int k.sy) ∧
      e.field "proc" = some (.str k.proc) ∧ e.field "timestamp" = some (.int k.time) := by
  unfold keyOf at h
  rw [bind_eq_ok] at h
  obtain ⟨d, h1, h⟩ := h
  rw [bind_eq_ok] at h
  obtain ⟨x, h2, h⟩ := h
  rw [bind_eq_ok] at h
  obtain ⟨y, h3, h⟩ := h
  rw [bind_eq_ok] at h
  obtain ⟨p, h4, h⟩ := h
  rw [bind_eq_ok] at h
  obtain ⟨t, h5, h⟩ := h
  rw [← Out.ok.inj h]
  exact ⟨needInt_ok h1, needInt_ok h2, needInt_ok h3, needStr_ok h4, needInt_ok h5⟩

theorem keyLe_iff (a b : Key) : a.le b = true ↔ a.dev < b.dev ∨ a.dev = b.dev ∧ (a.sx < b.sx ∨ a.sx = b.sx ∧
    (a.sy < b.sy ∨ a.sy = b.sy ∧ (a.proc < b.proc ∨ a.proc = b.proc ∧ a.time ≤ b.time))) := by
  unfold Key.le
  split
  · rename_i h; rw [decide_eq_true_eq]; omega
  rename_i h1
  rw [not_not] at h1
  split
  · rename_i h; rw [decide_eq_true_eq]; omega
  rename_i h2
  rw [not_not] at h2
  split
  · rename_i h; rw [decide_eq_true_eq]; omega
  rename_i h3
  rw [not_not] at h3
  split
  · rename_i h
    rw [decide_eq_true_eq]
    simp [h1, h2, h3, h]
  · rename_i h4
    rw [not_not] at h4
    rw [decide_eq_true_eq]
    simp [h1, h2, h3, h4]

theorem keyLe_total (a b : Key) (h : a.le b = false) : b.le a = true := by
  have h : ¬ a.le b = true := by simp [h]
  rw [keyLe_iff] at h ⊢
  rcases lt_trichotomy a.proc b.proc with hp | hp | hp
  · simp only [hp, true_or, and_true] at h
    omega
  · simp only [hp, lt_irrefl, false_or, true_and] at h ⊢
    omega
  · simp only [hp, true_or, and_true]
    by_cases h1 : a.dev = b.dev <;> by_cases h2 : a.sx = b.sx <;> by_cases h3 : a.sy = b.sy <;>
      simp only [h1, h2, h3, true_and, lt_irrefl, false_or, not_or, false_and, or_false] at h ⊢ <;> omega

theorem keyLe_trans (a b c : Key) (h1 : a.le b = true) (h2 : b.le c = true) : a.le c = true := by
  rw [keyLe_iff] at *
  rcases h1 with h1 | ⟨e1, h1⟩
  · rcases h2 with h2 | ⟨e2, _⟩ <;> left <;> omega
  rcases h2 with h2 | ⟨e2, h2⟩
  · left; omega
  refine Or.inr ⟨by omega, ?_⟩
  rcases h1 with h1 | ⟨e3, h1⟩
  · rcases h2 with h2 | ⟨e2, _⟩ <;> left <;> omega
  rcases h2 with h2 | ⟨e4, h2⟩
  · left; omega
  refine Or.inr ⟨by omega, ?_⟩
  rcases h1 with h1 | ⟨e5, h1⟩
  · rcases h2 with h2 | ⟨e2, _⟩ <;> left <;> omega
  rcases h2 with h2 | ⟨e6, h2⟩
  · left; omega
  refine Or.inr ⟨by omega, ?_⟩
  rcases h1 with h1 | ⟨e7, h1⟩
  · rcases h2 with h2 | ⟨e2, _⟩
    · exact Or.inl (lt_trans h1 h2)
    · exact Or.inl (e2 ▸ h1)
  rcases h2 with h2 | ⟨e8, h2⟩
  · exact Or.inl (e7 ▸ h2)
  · exact Or.inr ⟨e7.trans e8, by omega⟩

/-- What `process_traces` does, without its intermediate lists. -/
theorem processTraces_ok {t : Topology} {desync : Bool} {events out : List Json}
    (h : processTraces t desync events = .ok out) :
    ∃ (timed : List (Int × Json)) (keyed : List (Key × Json)) (evs : List Json),
      List.Forall₂ (fun e p => e.field "timestamp" = some (.int p.1) ∧ p.2 = e) events timed ∧
      List.Forall₂ (fun (p : Int × Json) e' => elaborate t p.2 = .ok e')
        (if desync then removeDesync (sortBy (fun a b => decide (a.1 ≤ b.1)) timed)
         else sortBy (fun a b => decide (a.1 ≤ b.1)) timed) evs ∧
      List.Forall₂ (fun e p => keyOf e = .ok p.1 ∧ p.2 = e) evs keyed ∧
      out = (sortBy (fun a b => a.1.le b.1) keyed).map (·.2) := by
  unfold processTraces at h
  rw [bind_eq_ok] at h
  obtain ⟨timed, h1, h⟩ := h
  simp only at h
  rw [bind_eq_ok] at h
  obtain ⟨evs, h2, h⟩ := h
  rw [bind_eq_ok] at h
  obtain ⟨keyed, h3, h⟩ := h
  refine ⟨timed, keyed, evs, ?_, Out.mapM_eq_ok.mp h2, ?_, (Out.ok.inj h).symm⟩
  · refine (Out.mapM_eq_ok.mp h1).imp fun e p hp => ?_
    rw [bind_eq_ok] at hp
    obtain ⟨n, hn, hp⟩ := hp
    rw [← Out.ok.inj hp]
    exact ⟨needInt_ok hn, rfl⟩
  · refine (Out.mapM_eq_ok.mp h3).imp fun e p hp => ?_
    rw [bind_eq_ok] at hp
    obtain ⟨n, hn, hp⟩ := hp
    rw [← Out.ok.inj hp]
    exact ⟨hn, rfl⟩

theorem forall₂_snd {β : Type} {evs : List Json} {l : List (β × Json)} {P : Json → β → Prop}
    (h : List.Forall₂ (fun e p => P e p.1 ∧ p.2 = e) evs l) : l.map (·.2) = evs := by
  induction h with
  | nil => rfl
  | cons h _ ih => rw [List.map_cons, h.2, ih]

/-- C77, C58.  The output of the script consists of the elaborated events of a prefix of the events in the order of
time, each exactly once: all events if the filter is off, otherwise up to the first jump of the timestamps. -/
theorem C77_events {t : Topology} {desync : Bool} {events out : List Json}
    (h : processTraces t desync events = .ok out) :
    ∃ (timed kept rest : List (Int × Json)) (evs : List Json),
      (timed.map (·.2)).Perm events ∧ timed.Pairwise (fun a b => a.1 ≤ b.1) ∧
      (∀ p ∈ timed, p.2.field "timestamp" = some (.int p.1)) ∧
      timed = kept ++ rest ∧ (desync = false → rest = []) ∧
      (desync = true → (∀ p a b q, kept = p ++ a :: b :: q → ¬ Jump a.1 b.1) ∧
        (∀ b q, rest = b :: q → ∃ p a, kept = p ++ [a] ∧ Jump a.1 b.1)) ∧
      List.Forall₂ (fun p e' => elaborate t p.2 = .ok e') kept evs ∧ out.Perm evs := by
  obtain ⟨timed, keyed, evs, h1, h2, h3, h4⟩ := processTraces_ok h
  have hperm := sortBy_perm (fun (a b : Int × Json) => decide (a.1 ≤ b.1)) timed
  have hev : timed.map (·.2) = events := forall₂_snd (P := fun e n => e.field "timestamp" = some (.int n)) h1
  have hfield : ∀ p ∈ timed, p.2.field "timestamp" = some (.int p.1) := by
    intro p hp
    obtain ⟨e, _, he, hpe⟩ := forall₂_exists_of_mem_right h1 hp
    rw [hpe]
    exact he
  have hout : out.Perm evs := by
    rw [h4, ← forall₂_snd (P := fun e k => keyOf e = .ok k) h3]
    exact (sortBy_perm _ keyed).map _
  have hsorted : (sortBy (fun (a b : Int × Json) => decide (a.1 ≤ b.1)) timed).Pairwise (fun a b => a.1 ≤ b.1) := by
    refine (sortBy_pairwise ?_ ?_ timed).imp fun h => by simpa using h
    · intro a b h
      simp only [decide_eq_false_iff_not, decide_eq_true_eq] at *
      omega
    · intro a b c h1 h2
      simp only [decide_eq_true_eq] at *
      omega
  cases desync with
  | false =>
    refine ⟨_, _, [], evs, hev ▸ hperm.map _, hsorted, fun p hp => hfield p (hperm.subset hp), ?_, fun _ => rfl, nofun,
      h2, hout⟩
    simp
  | true =>
    obtain ⟨rest, g1, g2, g3⟩ := C58_prefix (sortBy (fun (a b : Int × Json) => decide (a.1 ≤ b.1)) timed)
    exact ⟨_, _, rest, evs, hev ▸ hperm.map _, hsorted, fun p hp => hfield p (hperm.subset hp), g1, nofun,
      fun _ => ⟨g2, g3⟩, h2, hout⟩

/-- Numbers of the event are in the signed 64-bit range; chip and core fit in 16 bits; the processor is known. -/
structure Usual (e : Json) : Prop where
  nums : ∀ k n, e.field k = some (.int n) → (Json.int n).asInt = some n
  chip : -32768 ≤ Trace.chip e ∧ Trace.chip e < 32768
  x : -32768 ≤ e.intD "sx" (-1) ∧ e.intD "sx" (-1) < 32768
  y : -32768 ≤ e.intD "sy" (-1) ∧ e.intD "sy" (-1) < 32768
  proc : (riscType? (e.strD "proc")).isSome

theorem intD_of_field {e : Json} {k : String} {n d : Int} (h : e.field k = some (.int n))
    (hn : (Json.int n).asInt = some n) : e.intD k d = n := by
  unfold Json.intD Json.int?
  rw [h, Option.bind_some, hn]
  rfl

/-- The names of the processors. -/
def riscName : RiscType → String
  | .brisc => "BRISC"
  | .ncrisc => "NCRISC"
  | .trisc0 => "TRISC_0"
  | .trisc1 => "TRISC_1"
  | .trisc2 => "TRISC_2"
  | .erisc => "ERISC"
  | .coreAgg => "CORE_AGG"

theorem riscType_inj {a b : String} {r : RiscType} (ha : riscType? a = some r) (hb : riscType? b = some r) : a = b := by
  have key : ∀ s, riscType? s = some r → s = riscName r := by
    intro s h
    unfold riscType? at h
    split_ifs at h with h1 h2 h3 h4 h5 h6 h7
    all_goals (rw [← Option.some.inj h]; assumption)
  rw [key a ha, key b hb]

theorem bmod16_inj {a b : Int} (ha : -32768 ≤ a ∧ a < 32768) (hb : -32768 ≤ b ∧ b < 32768)
    (h : a.bmod 65536 = b.bmod 65536) : a = b := by
  rw [Int.bmod_eq_of_le (by omega) (by omega), Int.bmod_eq_of_le (by omega) (by omega)] at h
  exact h

/-- C67.  The script puts the events of each core and processor in the order of time, which the conversion of zones
relies on (`C67_partial`). -/
theorem C67_script {t : Topology} {desync : Bool} {events out : List Json}
    (h : processTraces t desync events = .ok out) (hu : ∀ e ∈ out, Usual e) : Trace.InOrder out := by
  obtain ⟨timed, keyed, evs, _, _, h3, h4⟩ := processTraces_ok h
  have hp := sortBy_perm (fun (a b : Key × Json) => a.1.le b.1) keyed
  have hs : (sortBy (fun (a b : Key × Json) => a.1.le b.1) keyed).Pairwise (fun a b => a.1.le b.1 = true) :=
    sortBy_pairwise (fun a b => keyLe_total a.1 b.1) (fun a b c => keyLe_trans a.1 b.1 c.1) keyed
  have hk : ∀ p ∈ sortBy (fun (a b : Key × Json) => a.1.le b.1) keyed, keyOf p.2 = .ok p.1 ∧ p.2 ∈ out := by
    intro p hpm
    obtain ⟨e, _, he, hpe⟩ := forall₂_exists_of_mem_right h3 (hp.subset hpm)
    rw [hpe]
    exact ⟨he, by rw [h4, ← hpe]; exact List.mem_map_of_mem hpm⟩
  unfold Trace.InOrder
  rw [h4, List.pairwise_map]
  refine hs.imp_of_mem fun {a b} ha hb hle hc => ?_
  obtain ⟨ka, oa⟩ := hk a ha
  obtain ⟨kb, ob⟩ := hk b hb
  have ua := hu _ oa
  have ub := hu _ ob
  obtain ⟨a1, a2, a3, a4, a5⟩ := keyOf_ok ka
  obtain ⟨b1, b2, b3, b4, b5⟩ := keyOf_ok kb
  have ta : Trace.time a.2 = a.1.time := intD_of_field a5 (ua.nums _ _ a5)
  have tb : Trace.time b.2 = b.1.time := intD_of_field b5 (ub.nums _ _ b5)
  rw [ta, tb]
  have hpa := ua.proc
  have hpb := ub.proc
  rw [Option.isSome_iff_exists] at hpa hpb
  obtain ⟨ra, hra⟩ := hpa
  obtain ⟨rb, hrb⟩ := hpb
  have hca := ua.chip
  have hcb := ub.chip
  have hxa := ua.x
  have hxb := ub.x
  have hya := ua.y
  have hyb := ub.y
  unfold Trace.core Trace.coord at hc
  rw [hra, hrb] at hc
  simp only [Option.map_some, Option.some.injEq, Prod.mk.injEq, Coord.mk.injEq] at hc
  obtain ⟨⟨c1, c2, c3⟩, c4⟩ := hc
  have e1 := bmod16_inj hca hcb c1
  have e2 := bmod16_inj hya hyb c2
  have e3 := bmod16_inj hxa hxb c3
  have e4 : a.2.strD "proc" = b.2.strD "proc" := riscType_inj hra (c4 ▸ hrb)
  unfold Trace.chip at e1
  rw [intD_of_field a1 (ua.nums _ _ a1), intD_of_field b1 (ub.nums _ _ b1)] at e1
  rw [intD_of_field a3 (ua.nums _ _ a3), intD_of_field b3 (ub.nums _ _ b3)] at e2
  rw [intD_of_field a2 (ua.nums _ _ a2), intD_of_field b2 (ub.nums _ _ b2)] at e3
  have e4' : a.1.proc = b.1.proc := by
    unfold Json.strD at e4
    rw [a4, b4] at e4
    exact e4
  rw [keyLe_iff, e4'] at hle
  simp only [lt_irrefl, false_or, true_and] at hle
  omega

/-! ### Elaborated events -/

theorem lookup_setKey (k k' : String) (v : Json) (l : List (String × Json)) :
    (setKey k v l).lookup k' = if k' = k then some v else l.lookup k' := by
  induction l with
  | nil =>
    unfold setKey
    by_cases h : k' = k
    · simp [h]
    · rw [if_neg h, List.lookup_cons, beq_eq_false_iff_ne.mpr h]
  | cons e l ih =>
    unfold setKey
    by_cases he : e.1 = k
    · rw [if_pos he]
      by_cases h : k' = k
      · simp [h]
      · rw [if_neg h, List.lookup_cons, beq_eq_false_iff_ne.mpr h, List.lookup_cons,
          beq_eq_false_iff_ne.mpr (he ▸ h)]
    · rw [if_neg he, List.lookup_cons, ih]
      by_cases h : k' = k
      · rw [if_pos h, if_pos h, beq_eq_false_iff_ne.mpr (h ▸ fun hn => he hn.symm)]
      · rw [if_neg h, if_neg h, List.lookup_cons]

theorem field_setField {k : String} {v e : Json} (he : ∃ l, e = .obj l) (k' : String) :
    (setField k v e).field k' = if k' = k then some v else e.field k' := by
  obtain ⟨l, rfl⟩ := he
  exact lookup_setKey k k' v l

theorem setField_obj {k : String} {v e : Json} (he : ∃ l, e = .obj l) : ∃ l, setField k v e = .obj l := by
  obtain ⟨l, rfl⟩ := he
  exact ⟨_, rfl⟩

theorem obj_of_field {e v : Json} {k : String} (h : e.field k = some v) : ∃ l, e = .obj l := by
  cases e with
  | obj l => exact ⟨l, rfl⟩
  | _ => exact absurd h nofun

/-- What elaboration does to a fabric event. -/
theorem elaborate_fabric {t : Topology} {e e' f : Json} (hf : e.field "fabric_send" = some f)
    (h : elaborate t e = .ok e') :
    ∃ src dst dev chan mux noc segs z, findPath t f src dst dev chan mux noc = .ok (segs, z) ∧
      e.field "dst" = some (.arr dst) ∧
      e.field "sx" = some (.int src.1) ∧ e.field "sy" = some (.int src.2) ∧
      e.field "src_device_id" = some (.int dev) ∧ f.field "eth_chan" = some (.int chan) ∧
      e.field "noc" = some (.str noc) ∧
      e' = setField "dst_device_id" (.int z)
        (setField "fabric_send" (setField "path" (.arr (segs.map Fabric.Segment.json)) f) e) := by
  unfold elaborate at h
  rw [hf] at h
  simp only at h
  rw [bind_eq_ok] at h
  obtain ⟨sx, h1, h⟩ := h
  rw [bind_eq_ok] at h
  obtain ⟨sy, h2, h⟩ := h
  rw [bind_eq_ok] at h
  obtain ⟨dst, h3, h⟩ := h
  rw [bind_eq_ok] at h
  obtain ⟨dev, h4, h⟩ := h
  rw [bind_eq_ok] at h
  obtain ⟨chan, h5, h⟩ := h
  rw [bind_eq_ok] at h
  obtain ⟨mux, h6, h⟩ := h
  rw [bind_eq_ok] at h
  obtain ⟨noc, h7, h⟩ := h
  rw [bind_eq_ok] at h
  obtain ⟨r, h8, h⟩ := h
  exact ⟨(sx, sy), dst, dev, chan, mux, noc, r.1, r.2, h8, needArr_ok h3, needInt_ok h1, needInt_ok h2, needInt_ok h4,
    needInt_ok h5, needStr_ok h7, (Out.ok.inj h).symm⟩

/-- C77.  Elaboration leaves events without fabric metadata alone; in the others it sets the destination chip and the
path of the metadata and leaves all other fields alone. -/
theorem C77_fields {t : Topology} {e e' : Json} (h : elaborate t e = .ok e') :
    (e.field "fabric_send" = none → e' = e) ∧
    (∀ k, k ≠ "fabric_send" → k ≠ "dst_device_id" → e'.field k = e.field k) ∧
    (∀ f, e.field "fabric_send" = some f → (∃ l, f = .obj l) ∧ ∃ f', e'.field "fabric_send" = some f' ∧
      (∀ k, k ≠ "path" → f'.field k = f.field k) ∧
      ∃ (segs : List Fabric.Segment) (z : Int), f'.field "path" = some (.arr (segs.map Fabric.Segment.json)) ∧ e'.field "dst_device_id" = some (.int z)) := by
  cases hf : e.field "fabric_send" with
  | none =>
    have : e' = e := by
      unfold elaborate at h
      rw [hf] at h
      exact (Out.ok.inj h).symm
    rw [this]
    exact ⟨fun _ => rfl, fun _ _ _ => rfl, nofun⟩
  | some f =>
    obtain ⟨src, dst, dev, chan, mux, noc, segs, z, _, _, _, _, _, hch, _, rfl⟩ := elaborate_fabric hf h
    have he := obj_of_field hf
    have hfo := obj_of_field hch
    refine ⟨nofun, ?_, ?_⟩
    · intro k h1 h2
      rw [field_setField (setField_obj he), if_neg h2, field_setField he, if_neg h1]
    · intro f' hf'
      rw [← Option.some.inj hf']
      refine ⟨hfo, setField "path" (.arr (segs.map Fabric.Segment.json)) f, ?_, ?_, segs, z, ?_, ?_⟩
      · rw [field_setField (setField_obj he), if_neg (by decide), field_setField he, if_pos rfl]
      · intro k hk
        rw [field_setField hfo, if_neg hk]
      · rw [field_setField hfo, if_pos rfl]
      · rw [field_setField (setField_obj he), if_pos rfl]

/-! ### Segments as routes -/

/-- A number that the conversion reads as it is: 64 bits and not the marker for a missing value. -/
def Plain (n : Int) : Prop := (Json.int n).asInt = some n ∧ n ≠ -1

/-- Chip and cores of a segment are given by plain numbers. -/
structure PlainSegment (s : Fabric.Segment) : Prop where
  device : Plain s.device
  chip : s.device.bmod 65536 ≠ -1
  x : Plain s.start.1
  y : Plain s.start.2
  forward : ∀ f, s.forward = some f → Plain f.1 ∧ Plain f.2
  parent : (Json.int s.parent).asInt = some s.parent

theorem seg_fields (s : Fabric.Segment) :
    s.json.field "device" = some (.int s.device) ∧ s.json.field "segment_start_x" = some (.int s.start.1) ∧
    s.json.field "segment_start_y" = some (.int s.start.2) ∧ s.json.field "parent_id" = some (.int s.parent) ∧
    s.json.field "forward_x" = s.forward.map (fun f => .int f.1) ∧
    s.json.field "forward_y" = s.forward.map (fun f => .int f.2) ∧
    s.json.field "local_writes" = s.writes.map .arr := by
  obtain ⟨dev, noc, start, fwd, w, p⟩ := s
  cases fwd <;> cases w <;> simp [Fabric.Segment.json, Json.field, List.lookup]

theorem seg_read {s : Fabric.Segment} (h : PlainSegment s) :
    s.json.intD "device" (-1) = s.device ∧ s.json.intD "segment_start_x" (-1) = s.start.1 ∧
    s.json.intD "segment_start_y" (-1) = s.start.2 ∧ s.json.intD "parent_id" (-1) = s.parent ∧
    (∀ f, s.forward = some f → s.json.intD "forward_x" (-1) = f.1 ∧ s.json.intD "forward_y" (-1) = f.2) ∧
    (Trace.forwards s.json ↔ s.forward ≠ none) ∧ Trace.localWrites s.json = s.writes.getD [] := by
  obtain ⟨h1, h2, h3, h4, h5, h6, h7⟩ := seg_fields s
  have hfw : ∀ f, s.forward = some f → s.json.intD "forward_x" (-1) = f.1 ∧ s.json.intD "forward_y" (-1) = f.2 := by
    intro f hf
    rw [hf] at h5 h6
    exact ⟨intD_of_field h5 (h.forward f hf).1.1, intD_of_field h6 (h.forward f hf).2.1⟩
  refine ⟨intD_of_field h1 h.device.1, intD_of_field h2 h.x.1, intD_of_field h3 h.y.1, intD_of_field h4 h.parent, hfw,
    ?_, ?_⟩
  · unfold Trace.forwards
    cases hf : s.forward with
    | none =>
      refine iff_of_false ?_ (fun h => h rfl)
      rw [hf] at h5
      unfold Json.intD Json.int?
      rw [h5]
      simp
    | some f =>
      obtain ⟨e1, e2⟩ := hfw f hf
      rw [e1, e2]
      exact iff_of_true ⟨(h.forward f hf).1.2, (h.forward f hf).2.2⟩ nofun
  · unfold Trace.localWrites
    rw [h7]
    cases s.writes <;> rfl

/-- A path in which each segment continues the one before and only the last one writes. -/
def Chain (segs : List Fabric.Segment) : Prop :=
  ∀ (i : Nat) s, segs[i]? = some s → s.parent = i - 1 ∧ (i + 1 < segs.length → s.writes = none) ∧
    (s.forward = none ↔ i + 1 = segs.length)

/-- The transfers of a converted chain. -/
theorem chain_converted {fp : FP} {device path : String} {pre post : List Json} {e f : Json} {wl : Workload}
    {segs : List Fabric.Segment} (hpaths : Trace.PathsComplete (pre ++ e :: post)) (hc : Trace.Converts e)
    (hf : Trace.fabric e = some f) (hrs : Trace.routes f = some (segs.map Fabric.Segment.json)) (hch : Chain segs)
    (hpl : ∀ s ∈ segs, PlainSegment s) (hlen : segs.length < 2147483648)
    (h : convertTrace fp device path (.doc (.arr (pre ++ e :: post))) = .ok (some wl)) :
    ∀ tr ∈ wl.transfers, tr.groupId = Trace.groupsBefore pre →
      ∃ (j : Nat) (s : Fabric.Segment), segs[j]? = some s ∧ tr.src = Trace.coord s.device s.start.2 s.start.1 ∧
        tr.groupParent = (j : Int) - 1 ∧
        (0 < j → ∃ s0 q par, segs[j - 1]? = some s0 ∧ s0.forward = some q ∧ par ∈ wl.transfers ∧
          par.groupId = tr.groupId ∧ par.groupIdx = tr.groupParent ∧
          par.src = Trace.coord s0.device s0.start.2 s0.start.1 ∧ par.dst = .unicast (Trace.coord s0.device q.2 q.1)) := by
  intro tr htr hg
  obtain ⟨dev, t0, hdev, ho, h1, h2, _⟩ := C68_groups hpaths hc (by rw [hf]; rfl) h
  have hit : Trace.items dev.arch t0 pre e = Trace.pathItems dev.arch t0 pre e (segs.map Fabric.Segment.json) := by
    unfold Trace.items; rw [hf]; simp only [hrs]; rfl
  have hmem : Trace.item tr ∈ Trace.pathItems dev.arch t0 pre e (segs.map Fabric.Segment.json) := by
    rw [← hit, ← h1]
    exact List.mem_map_of_mem (List.mem_filter.mpr ⟨htr, by simpa using hg⟩)
  unfold Trace.pathItems at hmem
  rw [List.mem_map] at hmem
  obtain ⟨m, hm, hme⟩ := hmem
  have hm1 := List.fst_mem_of_mem_zipIdx hm
  unfold Trace.movements at hm1
  rw [List.mem_flatMap] at hm1
  obtain ⟨r, hr, hm2⟩ := hm1
  rw [List.mem_map] at hm2
  obtain ⟨pc, _, hpc⟩ := hm2
  have hr1 : m.1.1 = r := by rw [← hpc]
  rw [List.mem_map] at hr
  obtain ⟨s, hs, rfl⟩ := hr
  obtain ⟨j, hj⟩ := List.getElem?_of_mem hs
  obtain ⟨p1, p2, p3⟩ := hch j s hj
  obtain ⟨r1, r2, r3, r4, _⟩ := seg_read (hpl s hs)
  have hjlt := (List.getElem?_eq_some_iff.mp hj).1
  unfold Trace.item at hme
  simp only [Trace.Item.mk.injEq] at hme
  obtain ⟨_, _, _, i1, _, _, _, _, _, _, _, i2⟩ := hme
  rw [hr1] at i1 i2
  rw [r1, r2, r3] at i1
  rw [r4, p1, Int.bmod_eq_of_le (by omega) (by omega)] at i2
  refine ⟨j, s, hj, i1.symm, i2.symm, fun hj0 => ?_⟩
  obtain ⟨k, rfl⟩ : ∃ k, j = k + 1 := ⟨j - 1, by omega⟩
  have hk : ∃ s0, segs[k]? = some s0 := ⟨segs[k]'(by omega), List.getElem?_eq_getElem (by omega)⟩
  obtain ⟨s0, hs0⟩ := hk
  obtain ⟨_, _, q3⟩ := hch k s0 hs0
  have hfn : s0.forward ≠ none := by rw [Ne, q3]; omega
  obtain ⟨q, hq⟩ := Option.ne_none_iff_exists'.mp hfn
  obtain ⟨a1, a2, a3, _, a5, a6, _⟩ := seg_read (hpl s0 (List.mem_of_getElem? hs0))
  have := C52_partial hpaths hc hf hrs (q := k) (r := s0.json) (by rw [List.getElem?_map, hs0]; rfl)
    (a6.mpr hfn) (by
      intro r' hr'
      rw [← List.map_take, List.mem_map] at hr'
      obtain ⟨s1, hs1, rfl⟩ := hr'
      obtain ⟨i, hi⟩ := List.getElem?_of_mem hs1
      rw [List.getElem?_take] at hi
      split at hi
      · rename_i hik
        obtain ⟨_, b2, _⟩ := hch i s1 hi
        have hw := b2 (by omega)
        obtain ⟨_, _, _, _, _, _, b7⟩ := seg_read (hpl s1 (List.mem_of_getElem? hi))
        unfold Trace.writesLocally
        rw [b7, hw]
        simp
      · exact absurd hi nofun) h
  obtain ⟨par, hp0, hp1, hp2, hp3, hp4⟩ := this
  refine ⟨s0, q, par, by rw [Nat.add_sub_cancel]; exact hs0, hq, hp0, by rw [hp1, hg], ?_, ?_, ?_⟩
  · rw [hp2, ← i2]; push_cast; omega
  · rw [hp3, a1, a2, a3]
  · rw [hp4, a1, (a5 q hq).1, (a5 q hq).2]

/-- The metadata of an elaborated event. -/
theorem elaborated_routes {e e' f : Json} {segs : List Fabric.Segment} {z : Int}
    (hf : e.field "fabric_send" = some f) (hfo : ∃ l, f = .obj l)
    (he' : e' = setField "dst_device_id" (.int z)
        (setField "fabric_send" (setField "path" (.arr (segs.map Fabric.Segment.json)) f) e)) :
    ∃ f', Trace.fabric e' = some f' ∧ Trace.routes f' = some (segs.map Fabric.Segment.json) := by
  have he := obj_of_field hf
  refine ⟨setField "path" (.arr (segs.map Fabric.Segment.json)) f, ?_, ?_⟩
  · unfold Trace.fabric
    rw [he', field_setField (setField_obj he), if_neg (by decide), field_setField he, if_pos rfl]
    obtain ⟨l, hl⟩ := setField_obj (k := "path") (v := .arr (segs.map Fabric.Segment.json)) hfo
    rw [hl]
    rfl
  · unfold Trace.routes
    rw [field_setField hfo, if_pos rfl]
    rfl

/-- C52 for events elaborated by the script (missing: multicasts).  For a unicast of a one-dimensional fabric, each
transfer of the converted event belongs to a segment of the path; if it is not the first one, then the transfer that
its parent index designates is the one that forwards the data to the next chip in the segment before. -/
theorem C52_script_partial {t : Topology} (hp : Proper t) {fp : FP} {device path : String} {pre post : List Json}
    {e e' f : Json} {wl : Workload} {start : Int}
    (hcfg : t.fabricConfig = "FABRIC_1D" ∨ t.fabricConfig = "FABRIC_1D_RING")
    (hfs : e.field "fabric_send" = some f) (hstart : f.field "start_distance" = some (.int start))
    (hrange : f.field "range" = some (.int 1)) (h1 : 1 ≤ start) (h2 : start < 2147483646)
    (hel : elaborate t e = .ok e') (hpaths : Trace.PathsComplete (pre ++ e' :: post)) (hc : Trace.Converts e')
    (h : convertTrace fp device path (.doc (.arr (pre ++ e' :: post))) = .ok (some wl)) :
    ∃ segs : List Fabric.Segment, (∃ f', Trace.fabric e' = some f' ∧ Trace.routes f' = some (segs.map Fabric.Segment.json)) ∧
      ((∀ s ∈ segs, PlainSegment s) → ∀ tr ∈ wl.transfers, tr.groupId = Trace.groupsBefore pre →
      ∃ (j : Nat) (s : Fabric.Segment), segs[j]? = some s ∧ tr.src = Trace.coord s.device s.start.2 s.start.1 ∧
        tr.groupParent = (j : Int) - 1 ∧
        (0 < j → ∃ s0 q par, segs[j - 1]? = some s0 ∧ s0.forward = some q ∧ par ∈ wl.transfers ∧
          par.groupId = tr.groupId ∧ par.groupIdx = tr.groupParent ∧
          par.src = Trace.coord s0.device s0.start.2 s0.start.1 ∧
          par.dst = .unicast (Trace.coord s0.device q.2 q.1))) := by
  obtain ⟨src, dst, dev, chan, mux, noc, segs, z, hfp, _, _, _, _, hch, _, he'⟩ := elaborate_fabric hfs hel
  obtain ⟨f', hf', hrs⟩ := elaborated_routes hfs (obj_of_field hch) he'
  refine ⟨segs, ⟨f', hf', hrs⟩, fun hpl => ?_⟩
  unfold findPath at hfp
  rw [if_pos hcfg] at hfp
  unfold needInt at hfp
  rw [hstart, hrange] at hfp
  have hp1 : path1d t src dst dev chan start 1 mux noc = .ok (segs, z) := hfp
  have hlen : segs.length < 2147483648 := by
    obtain ⟨r, _, _, _, _, _, line, _, _, _, g1, g2, _⟩ := C74_line hp (by omega) hp1
    rw [g1, List.length_append]
    have : (firstSegments src dev mux noc r).length ≤ 2 := by cases mux <;> simp [firstSegments]
    omega
  refine chain_converted hpaths hc hf' hrs (fun i s hi => ?_) hpl hlen h
  obtain ⟨g1, g2⟩ := C74_writes hp h1 (le_refl _) hp1 i s hi
  refine ⟨C74_parents hp (by omega) hp1 i s hi, fun hlt => ?_, g2⟩
  rw [g1, if_neg (by omega)]

/-- Two chips in a ring with one routing plane. -/
def twin : Topology where
  meshShapes := [(0, (1, 2))]
  fabricConfig := "FABRIC_1D_RING"
  clusterType := "N300"
  planes := [((0, 0, .E), 0), ((0, 0, .W), 1), ((1, 0, .E), 0), ((1, 0, .W), 1)]
  nodes := [(0, (0, 0)), (1, (0, 1))]
  ethCoord := [(0, (9, 0)), (1, (1, 0))]

/-- A fabric event before elaboration: from core (1, 2) of chip 0 to core (3, 3) of `range` chips. -/
def sendEv (t range : Int) : Json :=
  moveEv t 1 2 "FABRIC_UNICAST_WRITE" [num "num_bytes" 512,
    ("dst", .arr [.obj [num "dx" 3, num "dy" 3, num "num_bytes" 512]]),
    ("fabric_send", .obj [num "eth_chan" 0, num "start_distance" 1, num "range" range])]

/-- Traces of two chips. -/
def rawTrace (range : Int) : List Json :=
  [zoneEv 60 1 2 "k" "ZONE_END", sendEv 10 range, zoneEv 0 1 2 "k" "ZONE_START",
   .obj [txt "proc" "BRISC", num "src_device_id" 1, num "sx" 1, num "sy" 2, num "timestamp" 40]]

/-- Groups, indices, parents and endpoints after script and conversion. -/
def throughBoth (range : Int) : Option (List (Int × Int × Int × Coord × Dest)) :=
  match processTraces twin true (rawTrace range) with
  | .ok evs => groups (convertTrace .exact "N300" "t.json" (.doc (.arr evs)))
  | _ => none

/-- A unicast: the write of chip 1 has the forwarding transfer of chip 0 as its parent. -/
example : throughBoth 1 = some
    [(0, 0, -1, ⟨0, 2, 1⟩, .unicast ⟨0, 0, 9⟩), (0, 1, 0, ⟨1, 0, 1⟩, .unicast ⟨1, 3, 3⟩)] := by
  decide +kernel

/-- C52 does not hold for a multicast of the script to two chips: the write of the second chip (here chip 0 again)
names index 1, which is the local write of the first chip and not its forwarding transfer, index 2. -/
theorem C52_script_violated : throughBoth 2 = some
    [(0, 0, -1, ⟨0, 2, 1⟩, .unicast ⟨0, 0, 9⟩), (0, 1, 0, ⟨1, 0, 1⟩, .unicast ⟨1, 3, 3⟩),
     (0, 2, 0, ⟨1, 0, 1⟩, .unicast ⟨1, 0, 9⟩), (0, 3, 1, ⟨0, 0, 1⟩, .unicast ⟨0, 3, 3⟩)] := by
  decide +kernel

/-- A script run with an unknown channel: the `NameError` ends the script. -/
example : (match processTraces { twin with planes := [] } false (rawTrace 1) with | .std x => some x | _ => none) =
    some .pyName := by
  decide +kernel

/-- The sorted output of a script run is in the order of time for each core. -/
example : (match processTraces twin true (rawTrace 1) with
    | .ok evs => some (evs.map fun e => (Trace.chip e, Trace.time e)) | _ => none) =
    some [(0, 0), (0, 10), (0, 60), (1, 40)] := by
  decide +kernel

end NPE.Props
