import Mathlib.Data.List.Basic
import Verif.Proofs.Route
import Verif.Proofs.Scan
import Verif.Spec.Ingest

/-
Lemmas about trace conversion.
-/

namespace NPE
open Spec Out

/-- Induction over the events already handled. -/
theorem foldlM_prefix {α σ : Type} {f : σ → α → Out σ} {P : List α → σ → Prop} {s0 : σ}
    (h0 : P [] s0) : ∀ {l : List α} {s : σ},
    (∀ pre a s s', pre ++ [a] <+: l → P pre s → f s a = .ok s' → P (pre ++ [a]) s') →
    foldlM f s0 l = .ok s → P l s := by
  intro l
  induction l using List.reverseRecOn with
  | nil => intro s _ h; rw [foldlM_nil] at h; rw [← Out.ok.inj h]; exact h0
  | append_singleton l a ih =>
    intro s hstep h
    rw [Out.foldlM_append, bind_eq_ok] at h
    obtain ⟨s1, h1, h2⟩ := h
    rw [foldlM_cons, bind_eq_ok] at h2
    obtain ⟨s2, h2, h3⟩ := h2
    rw [foldlM_nil] at h3
    rw [← Out.ok.inj h3]
    exact hstep l a s1 s2 (List.prefix_refl _)
      (ih (fun pre b t t' hp hP hf => hstep pre b t t' (hp.trans (List.prefix_append _ _)) hP hf) h1) h2

theorem toI16_eq (n : Int) : toI16 n = n.bmod 65536 := by
  unfold toI16 Int.bmod
  simp only
  split <;> split <;> omega

theorem toI32_eq (n : Int) : toI32 n = n.bmod 4294967296 := by
  unfold toI32 Int.bmod
  simp only
  split <;> split <;> omega

theorem toU32_eq (n : Int) : ((toU32 n : Nat) : Int) = n % 4294967296 := by
  unfold toU32
  omega

theorem toU32_lt (n : Int) : toU32 n < 4294967296 := by
  unfold toU32
  omega

theorem mkCoord_eq (d r c : Int) : mkCoord d r c = Trace.coord d r c := by
  unfold mkCoord Trace.coord
  simp [toI16_eq]

theorem mkCoord_wrapped (d r c : Int) : mkCoord (toI16 d) r c = Trace.coord d r c := by
  unfold mkCoord Trace.coord
  simp [toI16_eq]

/-- The parts of the names that the code looks for. -/
theorem event_types : ∀ s ∈ supportedEvents,
    (endsWith s "SET_STATE" = true ↔ s ∈ Trace.readSetters ∨ s ∈ Trace.writeSetters) ∧
    (startsWith s "READ" = true ↔ s ∈ Trace.readSetters ∨ s ∈ Trace.reads) ∧
    (startsWith s "WRITE" = true ↔ s ∈ Trace.writeSetters ∨ s ∈ Trace.writes) ∧
    (contains s "WITH_STATE" = true ↔ s ∈ Trace.readUsers ∨ s ∈ Trace.writeUsers) ∧
    (contains s "READ" = true ↔ s ∈ Trace.readSetters ∨ s ∈ Trace.reads) ∧
    (s ∈ Trace.writeUsers → contains s "WRITE" = true) := by
  decide +kernel

/-- The lists of types make up the supported types. -/
theorem supported_iff (s : String) : s ∈ supportedEvents ↔
    s ∈ Trace.readSetters ∨ s ∈ Trace.writeSetters ∨ s ∈ Trace.reads ∨ s ∈ Trace.writes ∨ s ∈ Trace.fabrics := by
  simp only [supportedEvents, Trace.readSetters, Trace.writeSetters, Trace.reads, Trace.readUsers,
    Trace.writes, Trace.writeUsers, Trace.fabrics, List.mem_cons, List.not_mem_nil, or_false]
  tauto

/-- The lists of types are disjoint. -/
theorem types_disjoint : ∀ s ∈ supportedEvents,
    (s ∈ Trace.readSetters → s ∉ Trace.writeSetters ∧ s ∉ Trace.reads ∧ s ∉ Trace.writes ∧ s ∉ Trace.fabrics) ∧
    (s ∈ Trace.writeSetters → s ∉ Trace.reads ∧ s ∉ Trace.writes ∧ s ∉ Trace.fabrics) ∧
    (s ∈ Trace.reads → s ∉ Trace.writes ∧ s ∉ Trace.fabrics) ∧
    (s ∈ Trace.writes → s ∉ Trace.fabrics) ∧
    (s ∈ Trace.readUsers → s ∈ Trace.reads) ∧ (s ∈ Trace.writeUsers → s ∈ Trace.writes) := by
  decide +kernel

/-- Endpoints in the form of the code. -/
def toSaved (v : Trace.Ends) : SavedState := ⟨v.sx, v.sy, v.dx, v.dy, v.bytes⟩

/-- Saved state in the form of the code. -/
def savedBy (setters : List String) (pre : List Json) : SavedState :=
  match Trace.latest setters pre with
  | none => {}
  | some e => toSaved (Trace.own e)

theorem latest_snoc (l : List String) (pre : List Json) (e : Json) :
    Trace.latest l (pre ++ [e]) = if Trace.type e ∈ l then some e else Trace.latest l pre := by
  unfold Trace.latest
  rw [List.reverse_append]
  by_cases h : Trace.type e ∈ l <;> simp [h]

theorem savedBy_snoc (l : List String) (pre : List Json) (e : Json) :
    savedBy l (pre ++ [e]) = if Trace.type e ∈ l then toSaved (Trace.own e) else savedBy l pre := by
  unfold savedBy
  rw [latest_snoc]
  by_cases h : Trace.type e ∈ l <;> simp only [if_pos, if_neg, h, not_false_eq_true]

theorem converted_append (pre a b : List Json) :
    Trace.converted pre (a ++ b) = Trace.converted pre a ++ Trace.converted (pre ++ a) b := by
  induction a generalizing pre with
  | nil => simp [Trace.converted]
  | cons e a ih => simp [Trace.converted, ih]

theorem converted_snoc (pre : List Json) (e : Json) : Trace.converted [] (pre ++ [e]) =
    Trace.converted [] pre ++ if Trace.Converts e then [(pre, e)] else [] := by
  rw [converted_append]
  simp [Trace.converted]

theorem readLatency_eq (arch : Arch) (v : Trace.Ends) :
    readLatency arch v.sx v.sy v.dx v.dy = Trace.readTime arch v := by
  unfold readLatency Trace.readTime
  by_cases h1 : v.sx = v.dx <;> by_cases h2 : v.sy = v.dy <;> cases arch <;> simp [h1, h2]

theorem writeLatency_trace (arch : Arch) (n : String) (sx sy dx dy : Int) :
    writeLatency arch sx sy dx dy (nocName n) = Trace.writeTime arch n sx sy dx dy := by
  have h10 : ∀ x : Int, modulo x 10 = x % 10 := fun x => modulo_eq x 10 (by norm_num)
  have h12 : ∀ x : Int, modulo x 12 = x % 12 := fun x => modulo_eq x 12 (by norm_num)
  have h17 : ∀ x : Int, modulo x 17 = x % 17 := fun x => modulo_eq x 17 (by norm_num)
  unfold writeLatency Trace.writeTime archHops Trace.hops nocName Trace.perHop Trace.dims archDims
  by_cases h0 : n = "NOC_0"
  · cases arch <;> simp [h0, h10, h12, h17]
  · by_cases h1 : n = "NOC_1"
    · cases arch <;> simp [h1, h10, h12, h17]
    · cases arch <;> simp [h0, h1]

/-! ### One event -/

theorem withState_eq {s : ConvState} {pre : List Json} {e : Json} (hsup : Trace.type e ∈ supportedEvents)
    (hnr : Trace.type e ∉ Trace.readSetters)
    (hrd : s.rd = savedBy Trace.readSetters pre) (hwr : s.wr = savedBy Trace.writeSetters pre) :
    swapRead (Trace.type e) (withState s (Trace.type e) (toSaved (Trace.own e))) =
      toSaved (Trace.ends pre e) := by
  obtain ⟨_, hread, _, hws, hcr, hcw⟩ := event_types _ hsup
  obtain ⟨d1, d2, d3, d4, d5, d6⟩ := types_disjoint _ hsup
  have hr : startsWith (Trace.type e) "READ" = decide (Trace.type e ∈ Trace.reads) := by
    rw [Bool.eq_iff_iff, hread]; simp [hnr]
  have hc : contains (Trace.type e) "READ" = decide (Trace.type e ∈ Trace.reads) := by
    rw [Bool.eq_iff_iff, hcr]; simp [hnr]
  have hu : ∀ (l : List String),
      ({ savedBy l pre with numBytes :=
          if 0 < (savedBy l pre).numBytes then (savedBy l pre).numBytes else (toSaved (Trace.own e)).numBytes } :
        SavedState) = toSaved (Trace.saved l pre e) := by
    intro l
    unfold savedBy Trace.saved
    cases Trace.latest l pre with
    | none => simp [toSaved]
    | some x => rfl
  have hv : withState s (Trace.type e) (toSaved (Trace.own e)) = toSaved
      (if Trace.type e ∈ Trace.readUsers then Trace.saved Trace.readSetters pre e
       else if Trace.type e ∈ Trace.writeUsers then Trace.saved Trace.writeSetters pre e
       else Trace.own e) := by
    unfold withState
    simp only [hrd, hwr, hu]
    by_cases h1 : Trace.type e ∈ Trace.readUsers
    · rw [if_pos (hws.mpr (Or.inl h1)), hc, if_pos (by simpa using d5 h1), if_pos h1]
    · by_cases h2 : Trace.type e ∈ Trace.writeUsers
      · have h3 : Trace.type e ∉ Trace.reads := fun h => (d3 h).1 (d6 h2)
        rw [if_pos (hws.mpr (Or.inr h2)), hc, if_neg (by simpa using h3), if_pos (hcw h2), if_neg h1, if_pos h2]
      · rw [if_neg (fun h => (hws.mp h).elim h1 h2), if_neg h1, if_neg h2]
  rw [hv]
  unfold swapRead Trace.ends
  rw [hr]
  simp only [decide_eq_true_eq]
  by_cases h : Trace.type e ∈ Trace.reads
  · rw [if_pos h, if_pos h]; rfl
  · rw [if_neg h, if_neg h]

theorem mkMcast_ok {a b : Coord} {gs : List CoordGrid} (h : mkMcast a b = .ok gs) : gs = [⟨a, b⟩] := by
  unfold mkMcast at h
  rw [bind_eq_ok] at h
  obtain ⟨_, _, h⟩ := h
  rw [bind_eq_ok] at h
  obtain ⟨_, _, h⟩ := h
  exact (Out.ok.inj h).symm

theorem eventDest_eq {pre : List Json} {e : Json} {r : Option Dest}
    (h : eventDest e (Trace.type e) (e.strD "noc") (e.intD "dst_device_id" (e.intD "src_device_id" 0))
      (toSaved (Trace.ends pre e)) = .ok r) :
    r = if Trace.type e = "WRITE_MULTICAST" ∧ ¬ Trace.hasCorners e then none else some (Trace.dest pre e) := by
  unfold eventDest at h
  by_cases hm : Trace.type e = "WRITE_MULTICAST"
  · rw [if_pos hm] at h
    simp only at h
    by_cases hc : Trace.hasCorners e
    · have hc' := hc
      unfold Trace.hasCorners at hc'
      rw [if_neg (by tauto)] at h
      rw [if_neg (by tauto)]
      unfold Trace.dest
      rw [if_pos hm]
      by_cases h0 : e.strD "noc" = "NOC_0"
      · rw [if_pos h0, bind_eq_ok] at h
        obtain ⟨gs, h1, h2⟩ := h
        rw [← Out.ok.inj h2, mkMcast_ok h1, if_pos h0]
        simp only [mkCoord_eq]; rfl
      · rw [if_neg h0] at h
        rw [if_neg h0]
        by_cases h1 : e.strD "noc" = "NOC_1"
        · rw [if_pos h1, bind_eq_ok] at h
          obtain ⟨gs, h2, h3⟩ := h
          rw [← Out.ok.inj h3, mkMcast_ok h2, if_pos h1]
          simp only [mkCoord_eq]; rfl
        · rw [if_neg h1] at h
          rw [if_neg h1, ← Out.ok.inj h]; rfl
    · have hc' := hc
      unfold Trace.hasCorners at hc'
      rw [if_pos (by tauto)] at h
      rw [if_pos ⟨hm, hc⟩, Out.ok.inj h]
  · rw [if_neg hm] at h
    rw [if_neg (fun x => hm x.1), ← Out.ok.inj h]
    unfold Trace.dest
    rw [if_neg hm, mkCoord_eq]
    rfl

/-- An event that is neither skipped nor a setter. -/
theorem plainEvent_eq {arch : Arch} {t0 : Int} {s : ConvState} {pre : List Json} {e : Json}
    {r : Option PlainEvent} (hsup : Trace.type e ∈ supportedEvents)
    (hnr : Trace.type e ∉ Trace.readSetters) (hnw : Trace.type e ∉ Trace.writeSetters)
    (hsk : Trace.type e = "READ" ∨ Trace.type e = "WRITE_" → e.intD "num_bytes" 0 ≠ 0)
    (hrd : s.rd = savedBy Trace.readSetters pre) (hwr : s.wr = savedBy Trace.writeSetters pre)
    (h : plainEvent arch t0 s e = .ok r) :
    r = if Trace.Converts e then
      some ⟨toSaved (Trace.ends pre e), e.strD "noc", Trace.time e - t0 + Trace.startup arch pre e,
        Trace.dest pre e⟩ else none := by
  have hty : Trace.type e ∈ Trace.reads ∨ Trace.type e ∈ Trace.writes ∨ Trace.type e ∈ Trace.fabrics := by
    have := (supported_iff _).mp hsup; tauto
  unfold plainEvent at h
  simp only at h
  have hv := withState_eq (e := e) hsup hnr hrd hwr
  unfold toSaved Trace.own at hv
  simp only at hv
  unfold Trace.type at hv
  rw [hv] at h
  by_cases hn : e.strD "noc" = ""
  · rw [if_pos hn] at h
    rw [if_neg (fun c => c.2.1 hn), Out.ok.inj h]
  rw [if_neg hn, bind_eq_ok] at h
  obtain ⟨d, h1, h2⟩ := h
  have hd := eventDest_eq (pre := pre) h1
  by_cases hc : Trace.type e = "WRITE_MULTICAST" ∧ ¬ Trace.hasCorners e
  · rw [if_pos hc] at hd
    rw [hd] at h2
    rw [if_neg (fun c => hc.2 (c.2.2.2 hc.1)), ← Out.ok.inj h2]
  · rw [if_neg hc] at hd
    rw [hd] at h2
    simp only at h2
    rw [if_pos ⟨hty, hn, hsk, fun x => by by_contra hh; exact hc ⟨x, hh⟩⟩, ← Out.ok.inj h2]
    have hl : eventLatency arch (Trace.type e) (e.strD "noc") (toSaved (Trace.ends pre e)) =
        Trace.startup arch pre e := by
      obtain ⟨_, hread, hwrite, _⟩ := event_types _ hsup
      unfold eventLatency Trace.startup
      simp only
      by_cases hr : Trace.type e ∈ Trace.reads
      · rw [if_pos (by exact hread.mpr (Or.inr hr)), if_pos hr]
        exact readLatency_eq _ _
      · rw [if_neg (fun x => (hread.mp x).elim hnr hr), if_neg hr]
        by_cases hw : Trace.type e ∈ Trace.writes
        · rw [if_pos (by exact hwrite.mpr (Or.inr hw)), if_pos hw]
          exact writeLatency_trace _ _ _ _ _ _
        · rw [if_neg (fun x => (hwrite.mp x).elim hnw hw), if_neg hw]
    show some (PlainEvent.mk (toSaved (Trace.ends pre e)) _ (Trace.time e - t0 +
      eventLatency arch (Trace.type e) (e.strD "noc") (toSaved (Trace.ends pre e))) _) = _
    rw [hl]

/-! ### Fabric paths -/

theorem item_make (b : Int) (src : Coord) (d : Dest) (o : Int) (n : Noc) (ty zp : String) (g i p : Int) :
    Trace.item (Transfer.make (toU32 b) 1 src d 0 (toU32 o) n ty zp g i (toI32 p)) =
      ⟨b % 4294967296, 1, b % 4294967296, src, d, 0, o % 4294967296, n, ty, g, i, p.bmod 4294967296⟩ := by
  unfold Trace.item Transfer.make
  simp only [toU32_eq, toI32_eq]
  have : toU32 b * 1 % 4294967296 = toU32 b := by
    rw [Nat.mul_one]; exact Nat.mod_eq_of_lt (toU32_lt b)
  rw [this, toU32_eq]

/-- The item of one movement. -/
def pathItem (ev : FabEvent) (o : Int) (r : Json) (p : Int × Int × Int) (k : Int) : Trace.Item :=
  ⟨p.2.2 % 4294967296, 1, p.2.2 % 4294967296,
    Trace.coord (r.intD "device" (-1)) (r.intD "segment_start_y" (-1)) (r.intD "segment_start_x" (-1)),
    .unicast (Trace.coord (r.intD "device" (-1)) p.2.1 p.1), 0, o % 4294967296, Trace.noc (r.strD "noc"), ev.type,
    ev.group, k, (r.intD "parent_id" (-1)).bmod 4294967296⟩

/-- What the loop over routes has produced. -/
structure Emitted (ev : FabEvent) (s0 s : FabState) (o : Int) (ms : List (Json × Int × Int × Int)) : Prop where
  items : s.transfers.map Trace.item = s0.transfers.map Trace.item ++
    (ms.zipIdx s0.idx.toNat).map fun m => pathItem ev o m.1.1 m.1.2 m.2
  idx : s.idx = s0.idx + ms.length
  off : s.offset = o

theorem push_emitted {ev : FabEvent} {s0 s : FabState} {o : Int} {ms : List (Json × Int × Int × Int)}
    (h : Emitted ev s0 s o ms) (h0 : 0 ≤ s0.idx) (r : Json) (x y b : Int) :
    Emitted ev s0 (s.push ev (nocOf (r.strD "noc"))
      (mkCoord (toI16 (r.intD "device" (-1))) (r.intD "segment_start_y" (-1)) (r.intD "segment_start_x" (-1)))
      (mkCoord (toI16 (r.intD "device" (-1))) y x) b (r.intD "parent_id" (-1))) o (ms ++ [(r, x, y, b)]) := by
  refine ⟨?_, ?_, h.off⟩
  · unfold FabState.push
    simp only [List.map_append, h.items, List.zipIdx_append, List.append_assoc, List.map_cons, List.map_nil,
      item_make, h.off, h.idx, mkCoord_wrapped, List.zipIdx_cons, List.zipIdx_nil]
    congr 2
    simp only [pathItem, nocOf, Trace.noc, List.cons.injEq, and_true]
    congr 1
    omega
  · unfold FabState.push
    simp only [h.idx, List.length_append, List.length_singleton]
    omega

theorem localWrites_emitted {ev : FabEvent} {s0 : FabState} {o : Int} (h0 : 0 ≤ s0.idx) (r : Json)
    (ws : List Json) : ∀ {s : FabState} {ms : List (Json × Int × Int × Int)}, Emitted ev s0 s o ms →
    Emitted ev s0 (ws.foldl (localWrite ev (nocOf (r.strD "noc")) (toI16 (r.intD "device" (-1)))
      (mkCoord (toI16 (r.intD "device" (-1))) (r.intD "segment_start_y" (-1)) (r.intD "segment_start_x" (-1)))
      (r.intD "parent_id" (-1))) s) o
      (ms ++ ((ws.filter Trace.writeGiven).map (fun w =>
        (w.intD "dx" (-1), w.intD "dy" (-1), w.intD "num_bytes" (-1)))).map fun p => (r, p)) := by
  induction ws with
  | nil => intro s ms h; simpa using h
  | cons w ws ih =>
    intro s ms h
    rw [List.foldl_cons]
    by_cases hw : Trace.writeGiven w
    · have e1 : localWrite ev (nocOf (r.strD "noc")) (toI16 (r.intD "device" (-1)))
          (mkCoord (toI16 (r.intD "device" (-1))) (r.intD "segment_start_y" (-1)) (r.intD "segment_start_x" (-1)))
          (r.intD "parent_id" (-1)) s w = s.push ev (nocOf (r.strD "noc"))
          (mkCoord (toI16 (r.intD "device" (-1))) (r.intD "segment_start_y" (-1)) (r.intD "segment_start_x" (-1)))
          (mkCoord (toI16 (r.intD "device" (-1))) (w.intD "dy" (-1)) (w.intD "dx" (-1)))
          (w.intD "num_bytes" (-1)) (r.intD "parent_id" (-1)) := by
        unfold localWrite
        exact if_pos hw
      rw [e1]
      have := ih (push_emitted h h0 r (w.intD "dx" (-1)) (w.intD "dy" (-1)) (w.intD "num_bytes" (-1)))
      rw [List.filter_cons_of_pos (by simpa using hw)]
      simpa using this
    · have e1 : localWrite ev (nocOf (r.strD "noc")) (toI16 (r.intD "device" (-1)))
          (mkCoord (toI16 (r.intD "device" (-1))) (r.intD "segment_start_y" (-1)) (r.intD "segment_start_x" (-1)))
          (r.intD "parent_id" (-1)) s w = s := by
        unfold localWrite
        exact if_neg hw
      rw [e1, List.filter_cons_of_neg (by simpa using hw)]
      exact ih h

/-- One complete route. -/
theorem fabricRoute_ok {ev : FabEvent} {s0 s s' : FabState} {o : Int} {ms : List (Json × Int × Int × Int)}
    {r : Json} (h0 : 0 ≤ s0.idx) (hr : Trace.Complete r) (h : fabricRoute ev s r = .ok s')
    (hs : Emitted ev s0 { s with offset := if s.idx = 0 then s.offset + Trace.firstTime ev.arch [r] else s.offset } o ms) :
    Emitted ev s0 s' o (ms ++ (Trace.pieces ev.numBytes r).map fun p => (r, p)) := by
  unfold fabricRoute at h
  rw [bind_eq_ok] at h
  obtain ⟨s1, h1, h⟩ := h
  replace h := (Out.ok.inj h).symm
  unfold fabricLatency at h1
  unfold fabricMoves at h
  simp only at h
  have e1 : s1 = { s with offset := if s.idx = 0 then s.offset + Trace.firstTime ev.arch [r] else s.offset } := by
    by_cases hz : s.idx = 0
    · rw [if_pos hz] at h1
      cases ha : ev.arch with
      | wormholeB0 =>
        rw [ha] at h1
        simp only at h1
        rw [← Out.ok.inj h1, if_pos hz, writeLatency_trace]
        rfl
      | blackhole => rw [ha] at h1; exact absurd h1 nofun
    · rw [if_neg hz] at h1
      rw [← Out.ok.inj h1, if_neg hz]
  rw [← e1] at hs
  have hd := hr.device
  rw [← toI16_eq] at hd
  have hm : ¬ (((r.field "local_writes").bind Json.asArr = none) ∧
      (r.intD "forward_x" (-1) = -1 ∨ r.intD "forward_y" (-1) = -1)) := by
    rintro ⟨hn, hf⟩
    apply hr.moves
    unfold Trace.pieces Trace.localWrites
    rw [hn, if_neg (by unfold Trace.forwards; tauto)]
    rfl
  rw [if_neg (by have := hr.startX; have := hr.startY; tauto)] at h
  have hw := localWrites_emitted h0 r (Trace.localWrites r) hs
  by_cases hf : r.intD "forward_x" (-1) ≠ -1 ∧ r.intD "forward_y" (-1) ≠ -1
  · rw [if_pos hf] at h
    rw [h]
    have := push_emitted hw h0 r (r.intD "forward_x" (-1)) (r.intD "forward_y" (-1)) ev.numBytes
    unfold Trace.pieces
    rw [if_pos (show Trace.forwards r from hf)]
    simpa [Trace.localWrites] using this
  · rw [if_neg hf] at h
    rw [h]
    unfold Trace.pieces
    rw [if_neg (show ¬ Trace.forwards r from hf)]
    simpa [Trace.localWrites] using hw

theorem pieces_ne_nil {r : Json} (h : Trace.Complete r) (b : Int) : Trace.pieces b r ≠ [] := by
  have := h.moves
  unfold Trace.pieces at *
  by_cases hf : Trace.forwards r
  · simp [hf]
  · rw [if_neg hf] at *; exact this

theorem fabricRoutes_ok {ev : FabEvent} {s0 : FabState} {o : Int} (h0 : 0 ≤ s0.idx) (rs : List Json) :
    ∀ {s s' : FabState} {ms : List (Json × Int × Int × Int)}, (∀ r ∈ rs, Trace.Complete r) → 0 < s.idx →
    Emitted ev s0 s o ms → foldlM (fabricRoute ev) s rs = .ok s' →
    Emitted ev s0 s' o (ms ++ Trace.movements ev.numBytes rs) := by
  induction rs with
  | nil =>
    intro s s' ms _ _ hs h
    rw [foldlM_nil] at h
    rw [← Out.ok.inj h]
    simpa [Trace.movements] using hs
  | cons r rs ih =>
    intro s s' ms hc hi hs h
    rw [foldlM_cons, bind_eq_ok] at h
    obtain ⟨s1, h1, h2⟩ := h
    have hr := hc r List.mem_cons_self
    have e := fabricRoute_ok h0 hr h1 (by rw [if_neg (by omega)]; exact hs)
    have hi1 : 0 < s1.idx := by
      rw [e.idx, List.length_append]
      have := hs.idx
      omega
    have := ih (fun r h => hc r (List.mem_cons_of_mem _ h)) hi1 e h2
    simpa [Trace.movements] using this

/-- A whole path. -/
theorem fabricPath_ok {ev : FabEvent} {ts : List Transfer} {o : Int} {rs : List Json} {fs : FabState}
    (hc : ∀ r ∈ rs, Trace.Complete r) (h : foldlM (fabricRoute ev) ⟨ts, 0, o⟩ rs = .ok fs) :
    fs.transfers.map Trace.item = ts.map Trace.item ++ ((Trace.movements ev.numBytes rs).zipIdx).map fun m =>
      pathItem ev (o + Trace.firstTime ev.arch rs) m.1.1 m.1.2 m.2 := by
  cases rs with
  | nil =>
    rw [foldlM_nil] at h
    rw [← Out.ok.inj h]
    simp [Trace.movements]
  | cons r rs =>
    rw [foldlM_cons, bind_eq_ok] at h
    obtain ⟨s1, h1, h2⟩ := h
    have hr := hc r List.mem_cons_self
    have e := fabricRoute_ok (s0 := ⟨ts, 0, o⟩) (o := o + Trace.firstTime ev.arch [r]) (ms := []) (le_refl _) hr h1
      ⟨by simp, by simp, by simp⟩
    have hne := pieces_ne_nil hr ev.numBytes
    have hi1 : 0 < s1.idx := by
      rw [e.idx]
      have : 0 < ((Trace.pieces ev.numBytes r).map fun p => (r, p)).length := by
        rw [List.length_map]; exact List.length_pos_iff.mpr hne
      simp only [List.nil_append]
      omega
    have := (fabricRoutes_ok (le_refl _) rs (fun r h => hc r (List.mem_cons_of_mem _ h)) hi1 e h2).items
    rw [this]
    simp [Trace.movements, Trace.firstTime]

/-! ### All events -/

/-- What the loop knows after the events `pre`. -/
structure Converted (arch : Arch) (t0 : Int) (pre : List Json) (s : ConvState) : Prop where
  rd : s.rd = savedBy Trace.readSetters pre
  wr : s.wr = savedBy Trace.writeSetters pre
  groups : s.groups = Trace.groupsBefore pre
  items : s.transfers.map Trace.item = (Trace.converted [] pre).flatMap fun q => Trace.items arch t0 q.1 q.2

theorem converts_type {e : Json} (h : Trace.Converts e) : Trace.type e ∈ supportedEvents ∧
    Trace.type e ∉ Trace.readSetters ∧ Trace.type e ∉ Trace.writeSetters := by
  have hs : Trace.type e ∈ supportedEvents := by
    rw [supported_iff]; have := h.1; tauto
  obtain ⟨d1, d2, _⟩ := types_disjoint _ hs
  refine ⟨hs, fun x => ?_, fun x => ?_⟩
  · have := d1 x; have := h.1; tauto
  · have := d2 x; have := h.1; tauto

/-- Events that change nothing. -/
theorem Converted.keep {arch : Arch} {t0 : Int} {pre : List Json} {s : ConvState} {e : Json}
    (h : Converted arch t0 pre s) (hc : ¬ Trace.Converts e) (hr : Trace.type e ∉ Trace.readSetters)
    (hw : Trace.type e ∉ Trace.writeSetters) : Converted arch t0 (pre ++ [e]) s := by
  refine ⟨?_, ?_, ?_, ?_⟩
  · rw [savedBy_snoc, if_neg hr]; exact h.rd
  · rw [savedBy_snoc, if_neg hw]; exact h.wr
  · unfold Trace.groupsBefore
    rw [converted_snoc, if_neg hc, List.append_nil]; exact h.groups
  · rw [converted_snoc, if_neg hc, List.append_nil]; exact h.items

theorem convBody_converted {arch : Arch} {t0 : Int} {zp : String} {pre : List Json} {s s' : ConvState} {e : Json}
    (hproc : e.strD "proc" ≠ "") (hpath : ∀ f, Trace.fabric e = some f → ∀ r ∈ (Trace.routes f).getD [], Trace.Complete r)
    (hs : Converted arch t0 pre s) (h : convBody arch t0 zp s e = .ok s') : Converted arch t0 (pre ++ [e]) s' := by
  unfold convBody at h
  by_cases hsk : skipped e = true
  · rw [if_pos hsk] at h
    rw [← Out.ok.inj h]
    unfold skipped at hsk
    simp only [Bool.or_eq_true, decide_eq_true_eq, Bool.and_eq_true] at hsk
    rcases hsk with ((hsk | hsk) | hsk) | hsk
    · have hn : Trace.type e ∉ supportedEvents := hsk
      have := (supported_iff (Trace.type e)).not.mp hn
      refine hs.keep (fun hc => hn (converts_type hc).1) ?_ ?_ <;> tauto
    · exact absurd hsk hproc
    · have ht : Trace.type e = "WRITE_" := hsk.1
      exact hs.keep (fun hc => hc.2.2.1 (Or.inr ht) hsk.2) (by rw [ht]; decide) (by rw [ht]; decide)
    · have ht : Trace.type e = "READ" := hsk.1
      exact hs.keep (fun hc => hc.2.2.1 (Or.inl ht) hsk.2) (by rw [ht]; decide) (by rw [ht]; decide)
  rw [if_neg hsk] at h
  have hsup : Trace.type e ∈ supportedEvents := by
    by_contra hn
    apply hsk
    unfold skipped
    simp only [Bool.or_eq_true, decide_eq_true_eq, Bool.and_eq_true]
    exact Or.inl (Or.inl (Or.inl hn))
  have hsize : Trace.type e = "READ" ∨ Trace.type e = "WRITE_" → e.intD "num_bytes" 0 ≠ 0 := by
    intro ht hz
    apply hsk
    unfold skipped
    simp only [Bool.or_eq_true, decide_eq_true_eq, Bool.and_eq_true]
    rcases ht with ht | ht
    · exact Or.inr ⟨ht, hz⟩
    · exact Or.inl (Or.inr ⟨ht, hz⟩)
  obtain ⟨hset, hread, hwrite, _⟩ := event_types _ hsup
  obtain ⟨d1, d2, _⟩ := types_disjoint _ hsup
  by_cases hst : endsWith (Trace.type e) "SET_STATE" = true
  · rw [if_pos (show endsWith (e.strD "type") "SET_STATE" = true from hst)] at h
    rw [← Out.ok.inj h]
    have hnc : ¬ Trace.Converts e := fun hc => (hset.mp hst).elim (converts_type hc).2.1 (converts_type hc).2.2
    have hk : Trace.converted [] (pre ++ [e]) = Trace.converted [] pre := by
      rw [converted_snoc, if_neg hnc, List.append_nil]
    have hown : (⟨e.intD "sx" (-1), e.intD "sy" (-1), e.intD "dx" (-1), e.intD "dy" (-1), e.intD "num_bytes" 0⟩ :
        SavedState) = toSaved (Trace.own e) := rfl
    unfold saveState
    simp only [hown]
    by_cases hr : Trace.type e ∈ Trace.readSetters
    · rw [if_pos (show startsWith (e.strD "type") "READ" = true from hread.mpr (Or.inl hr))]
      refine ⟨?_, ?_, ?_, ?_⟩
      · rw [savedBy_snoc, if_pos hr]
      · rw [savedBy_snoc, if_neg (d1 hr).1]; exact hs.wr
      · unfold Trace.groupsBefore; rw [hk]; exact hs.groups
      · rw [hk]; exact hs.items
    · have hw : Trace.type e ∈ Trace.writeSetters := (hset.mp hst).resolve_left hr
      rw [if_neg (show ¬ startsWith (e.strD "type") "READ" = true from
          fun x => (hread.mp x).elim hr (d2 hw).1),
        if_pos (show startsWith (e.strD "type") "WRITE" = true from hwrite.mpr (Or.inl hw))]
      refine ⟨?_, ?_, ?_, ?_⟩
      · rw [savedBy_snoc, if_neg hr]; exact hs.rd
      · rw [savedBy_snoc, if_pos hw]
      · unfold Trace.groupsBefore; rw [hk]; exact hs.groups
      · rw [hk]; exact hs.items
  rw [if_neg (show ¬ endsWith (e.strD "type") "SET_STATE" = true from hst), bind_eq_ok] at h
  obtain ⟨p, hp, h⟩ := h
  have hnr : Trace.type e ∉ Trace.readSetters := fun x => hst (hset.mpr (Or.inl x))
  have hnw : Trace.type e ∉ Trace.writeSetters := fun x => hst (hset.mpr (Or.inr x))
  have hp' := plainEvent_eq hsup hnr hnw hsize hs.rd hs.wr hp
  by_cases hc : Trace.Converts e
  swap
  · rw [if_neg hc] at hp'
    rw [hp'] at h
    rw [← Out.ok.inj h]
    exact hs.keep hc hnr hnw
  rw [if_pos hc] at hp'
  rw [hp'] at h
  simp only at h
  have hk : Trace.converted [] (pre ++ [e]) = Trace.converted [] pre ++ [(pre, e)] := by
    rw [converted_snoc, if_pos hc]
  cases hf : Trace.fabric e with
  | none =>
    have hf' : (Json.field "fabric_send" e).bind Json.asObj = none := hf
    rw [hf'] at h
    simp only at h
    rw [← Out.ok.inj h]
    refine ⟨?_, ?_, ?_, ?_⟩
    · rw [savedBy_snoc, if_neg hnr]; exact hs.rd
    · rw [savedBy_snoc, if_neg hnw]; exact hs.wr
    · unfold Trace.groupsBefore; rw [hk, List.countP_append]
      simp only [List.countP_singleton, hf]
      exact hs.groups
    · rw [hk, List.flatMap_append, List.map_append, hs.items]
      congr 1
      have hi : Trace.items arch t0 pre e = [Trace.plain arch t0 pre e] := by
        unfold Trace.items; rw [hf]
      simp only [List.map_cons, List.map_nil, List.flatMap_cons, List.flatMap_nil, List.append_nil, hi]
      congr 1
      unfold plainTransfer
      have := item_make (toSaved (Trace.ends pre e)).numBytes
        (mkCoord (e.intD "src_device_id" 0) (toSaved (Trace.ends pre e)).sy (toSaved (Trace.ends pre e)).sx)
        (Trace.dest pre e) (Trace.time e - t0 + Trace.startup arch pre e) (nocOf (e.strD "noc")) (e.strD "type") zp
        (-1) (-1) (-1)
      rw [show toI32 (-1) = -1 from rfl] at this
      rw [this, mkCoord_eq]
      rfl
  | some f =>
    have hf' : (Json.field "fabric_send" e).bind Json.asObj = some f := hf
    rw [hf'] at h
    simp only at h
    have hg : Trace.groupsBefore (pre ++ [e]) = Trace.groupsBefore pre + 1 := by
      unfold Trace.groupsBefore
      rw [hk, List.countP_append]
      simp [hf]
    unfold fabricEvent at h
    have hit : Trace.items arch t0 pre e = Trace.pathItems arch t0 pre e ((Trace.routes f).getD []) := by
      unfold Trace.items; rw [hf]
    cases hrt : Trace.routes f with
    | none =>
      have hrt' : (Json.field "path" f).bind Json.asArr = none := hrt
      rw [hrt'] at h
      simp only at h
      rw [← Out.ok.inj h]
      refine ⟨?_, ?_, ?_, ?_⟩
      · rw [savedBy_snoc, if_neg hnr]; exact hs.rd
      · rw [savedBy_snoc, if_neg hnw]; exact hs.wr
      · rw [hg, ← hs.groups]
      · rw [hk, List.flatMap_append, hs.items]
        simp [hit, hrt, Trace.pathItems, Trace.movements]
    | some rs =>
      have hrt' : (Json.field "path" f).bind Json.asArr = some rs := hrt
      rw [hrt'] at h
      simp only at h
      rw [bind_eq_ok] at h
      obtain ⟨fs, h1, h2⟩ := h
      rw [← Out.ok.inj h2]
      have hcs : ∀ r ∈ rs, Trace.Complete r := by
        have := hpath f hf
        rwa [hrt] at this
      have hx := fabricPath_ok hcs h1
      refine ⟨?_, ?_, ?_, ?_⟩
      · rw [savedBy_snoc, if_neg hnr]; exact hs.rd
      · rw [savedBy_snoc, if_neg hnw]; exact hs.wr
      · rw [hg, ← hs.groups]
      · rw [hk, List.flatMap_append, ← hs.items]
        simp only [hx, List.flatMap_cons, List.flatMap_nil, List.append_nil, hit, hrt, Option.getD_some]
        congr 1
        unfold Trace.pathItems pathItem
        simp only [hs.groups, toSaved]
        rfl

/-! ### The time origin -/

theorem goldenEvent_fst (evs : List Json) : ∀ (s : Int × CoreTimes),
    (evs.foldl goldenEvent s).1 = evs.foldl (fun a e => min a (Trace.time e)) s.1 := by
  induction evs with
  | nil => intro s; rfl
  | cons e evs ih =>
    intro s
    rw [List.foldl_cons, List.foldl_cons, ih]
    congr 1
    unfold goldenEvent
    simp only
    split <;> rfl

theorem foldl_min_spec {α : Type} (f : α → Int) (l : List α) : ∀ a : Int,
    (l.foldl (fun a e => min a (f e)) a ≤ a ∧ ∀ e ∈ l, l.foldl (fun a e => min a (f e)) a ≤ f e) ∧
    (l.foldl (fun a e => min a (f e)) a = a ∨ ∃ e ∈ l, f e = l.foldl (fun a e => min a (f e)) a) := by
  induction l with
  | nil => intro a; simp
  | cons e l ih =>
    intro a
    rw [List.foldl_cons]
    obtain ⟨⟨h1, h2⟩, h3⟩ := ih (min a (f e))
    refine ⟨⟨by omega, ?_⟩, ?_⟩
    · intro x hx
      rcases List.mem_cons.mp hx with rfl | hx
      · omega
      · exact h2 x hx
    · rcases h3 with h3 | ⟨x, hx, h3⟩
      · rcases Int.le_total a (f e) with h | h
        · left; omega
        · right; exact ⟨e, List.mem_cons_self, by omega⟩
      · right; exact ⟨x, List.mem_cons_of_mem _ hx, h3⟩

theorem intD_lt (e : Json) (k : String) {d : Int} (hd : d < 9223372036854775808) : e.intD k d < 9223372036854775808 := by
  unfold Json.intD Json.int?
  cases e.field k with
  | none => simpa using hd
  | some j =>
    simp only [Option.bind_some]
    unfold Json.asInt
    cases j <;> simp only [Option.getD_none] <;> try exact hd
    split
    · rename_i h; simpa using h.2
    · exact hd

/-- The start value of the time origin is beyond all timestamps. -/
theorem origin_spec {evs : List Json} (hne : evs ≠ []) :
    Trace.IsOrigin evs (evs.foldl goldenEvent (2000000000000000000000000000000, [])).1 := by
  rw [goldenEvent_fst]
  obtain ⟨⟨h1, h2⟩, h3⟩ := foldl_min_spec Trace.time evs 2000000000000000000000000000000
  refine ⟨?_, h2⟩
  rcases h3 with h3 | h3
  · exfalso
    obtain ⟨e, he⟩ := List.exists_mem_of_ne_nil _ hne
    have := h2 e he
    have hlt : Trace.time e < 9223372036854775808 := intD_lt e _ (by norm_num)
    rw [h3] at this
    omega
  · exact h3

/-! ### Golden windows -/

/-- What `per_core_ts` holds after the events `evs`. -/
structure Times (evs : List Json) (m : CoreTimes) : Prop where
  sound : ∀ x ∈ m, (∃ e ∈ evs, Trace.Counts x.1.2.2.2 e ∧ Trace.time e = x.2.1) ∧
    (∃ e ∈ evs, Trace.Counts x.1.2.2.2 e ∧ Trace.time e = x.2.2)
  cover : ∀ e ∈ evs, ∀ d, Trace.Counts d e → ∃ x ∈ m, x.1.2.2.2 = d ∧ x.2.1 ≤ Trace.time e ∧ Trace.time e ≤ x.2.2

theorem add_cover (m : CoreTimes) (k : String × Int × Int × Int) (ts : Int) :
    (∃ x ∈ m.add k ts, x.1 = k ∧ x.2.1 ≤ ts ∧ ts ≤ x.2.2) ∧
    (∀ x ∈ m, ∃ y ∈ m.add k ts, y.1 = x.1 ∧ y.2.1 ≤ x.2.1 ∧ x.2.2 ≤ y.2.2) ∧
    (∀ y ∈ m.add k ts, (y ∈ m) ∨ (y.1 = k ∧ (y.2.1 = ts ∨ ∃ x ∈ m, x.1 = k ∧ x.2.1 = y.2.1) ∧
      (y.2.2 = ts ∨ ∃ x ∈ m, x.1 = k ∧ x.2.2 = y.2.2))) := by
  induction m with
  | nil => simp [CoreTimes.add]
  | cons a m ih =>
    unfold CoreTimes.add
    by_cases h : a.1 = k
    · rw [if_pos h]
      refine ⟨⟨_, List.mem_cons_self, rfl, by simp, by simp⟩, ?_, ?_⟩
      · intro x hx
        rcases List.mem_cons.mp hx with rfl | hx
        · exact ⟨_, List.mem_cons_self, h.symm, by simp, by simp⟩
        · exact ⟨x, List.mem_cons_of_mem _ hx, rfl, le_refl _, le_refl _⟩
      · intro y hy
        rcases List.mem_cons.mp hy with rfl | hy
        · right
          refine ⟨rfl, ?_, ?_⟩
          · rcases Int.le_total a.2.1 ts with h' | h'
            · right; exact ⟨a, List.mem_cons_self, h, by simp [h']⟩
            · left; simp [h']
          · rcases Int.le_total a.2.2 ts with h' | h'
            · left; simp [h']
            · right; exact ⟨a, List.mem_cons_self, h, by simp [h']⟩
        · left; exact List.mem_cons_of_mem _ hy
    · rw [if_neg h]
      obtain ⟨⟨x, hx, h1⟩, h2, h3⟩ := ih
      refine ⟨⟨x, List.mem_cons_of_mem _ hx, h1⟩, ?_, ?_⟩
      · intro x hx
        rcases List.mem_cons.mp hx with rfl | hx
        · exact ⟨_, List.mem_cons_self, rfl, le_refl _, le_refl _⟩
        · obtain ⟨y, hy, h⟩ := h2 x hx
          exact ⟨y, List.mem_cons_of_mem _ hy, h⟩
      · intro y hy
        rcases List.mem_cons.mp hy with rfl | hy
        · left; exact List.mem_cons_self
        · rcases h3 y hy with h | ⟨h1, h2, h3⟩
          · left; exact List.mem_cons_of_mem _ h
          · right
            refine ⟨h1, h2.imp_right ?_, h3.imp_right ?_⟩
            · rintro ⟨x, hx, h⟩; exact ⟨x, List.mem_cons_of_mem _ hx, h⟩
            · rintro ⟨x, hx, h⟩; exact ⟨x, List.mem_cons_of_mem _ hx, h⟩

theorem times_spec (evs : List Json) (t : Int) : Times evs (evs.foldl goldenEvent (t, [])).2 := by
  induction evs using List.reverseRecOn with
  | nil => exact ⟨by simp, by simp⟩
  | append_singleton l e ih =>
    rw [List.foldl_append, List.foldl_cons, List.foldl_nil]
    generalize l.foldl goldenEvent (t, []) = s at ih ⊢
    unfold goldenEvent
    simp only
    by_cases hc : e.strD "proc" ≠ "" ∧ e.intD "sx" (-1) ≠ -1 ∧ e.intD "sy" (-1) ≠ -1
    · rw [if_pos hc]
      simp only
      obtain ⟨h1, h2, h3⟩ := add_cover s.2 (e.strD "proc", e.intD "sx" (-1), e.intD "sy" (-1),
        e.intD "src_device_id" (-1)) (e.intD "timestamp" 0)
      have hce : Trace.Counts (e.intD "src_device_id" (-1)) e := ⟨hc.1, hc.2.1, hc.2.2, rfl⟩
      constructor
      · intro y hy
        rcases h3 y hy with h | ⟨hk, hlo, hhi⟩
        · obtain ⟨⟨a, ha, ha'⟩, ⟨b, hb, hb'⟩⟩ := ih.sound y h
          exact ⟨⟨a, by simp [ha], ha'⟩, ⟨b, by simp [hb], hb'⟩⟩
        · have hd : y.1.2.2.2 = e.intD "src_device_id" (-1) := by rw [hk]
          rw [hd]
          constructor
          · rcases hlo with h | ⟨x, hx, hxk, h⟩
            · exact ⟨e, by simp, hce, h.symm⟩
            · obtain ⟨⟨a, ha, ha1, ha2⟩, _⟩ := ih.sound x hx
              rw [hxk] at ha1
              exact ⟨a, by simp [ha], ha1, by rw [ha2, h]⟩
          · rcases hhi with h | ⟨x, hx, hxk, h⟩
            · exact ⟨e, by simp, hce, h.symm⟩
            · obtain ⟨_, ⟨a, ha, ha1, ha2⟩⟩ := ih.sound x hx
              rw [hxk] at ha1
              exact ⟨a, by simp [ha], ha1, by rw [ha2, h]⟩
      · intro e' he' d hd
        rcases List.mem_append.mp he' with he' | he'
        · obtain ⟨x, hx, hxd, hx1, hx2⟩ := ih.cover e' he' d hd
          obtain ⟨y, hy, hyk, hy1, hy2⟩ := h2 x hx
          exact ⟨y, hy, by rw [hyk, hxd], by omega, by omega⟩
        · rw [List.mem_singleton] at he'
          subst he'
          obtain ⟨x, hx, hxk, hx1, hx2⟩ := h1
          exact ⟨x, hx, by rw [hxk]; exact hd.2.2.2, hx1, hx2⟩
    · rw [if_neg hc]
      constructor
      · intro y hy
        obtain ⟨⟨a, ha, ha'⟩, ⟨b, hb, hb'⟩⟩ := ih.sound y hy
        exact ⟨⟨a, by simp [ha], ha'⟩, ⟨b, by simp [hb], hb'⟩⟩
      · intro e' he' d hd
        rcases List.mem_append.mp he' with he' | he'
        · exact ih.cover e' he' d hd
        · rw [List.mem_singleton] at he'
          subst he'
          exact absurd ⟨hd.1, hd.2.1, hd.2.2.1⟩ hc

theorem doubleToSize_ok {x : Int} {n : Nat} (h : doubleToSize x = .ok n) : (n : Int) = x := by
  unfold doubleToSize at h
  split at h
  · rename_i hx
    rw [← Out.ok.inj h]
    omega
  · exact absurd h nofun

/-- The loop over cores. -/
theorem goldenCores_ok (d : Int) (m : CoreTimes) : ∀ {s r : Nat × Nat}, foldlM (goldenCore d) s m = .ok r →
    (r.1 ≤ s.1 ∧ ∀ x ∈ m, x.1.2.2.2 = d → (r.1 : Int) ≤ x.2.1) ∧
    (r.1 = s.1 ∨ ∃ x ∈ m, x.1.2.2.2 = d ∧ x.2.1 = r.1) ∧
    (s.2 ≤ r.2 ∧ ∀ x ∈ m, x.1.2.2.2 = d → x.2.2 ≤ (r.2 : Int)) ∧
    (r.2 = s.2 ∨ ∃ x ∈ m, x.1.2.2.2 = d ∧ x.2.2 = r.2) := by
  induction m with
  | nil => intro s r h; rw [foldlM_nil] at h; rw [← Out.ok.inj h]; simp
  | cons a m ih =>
    intro s r h
    rw [foldlM_cons, bind_eq_ok] at h
    obtain ⟨s1, h1, h2⟩ := h
    obtain ⟨⟨i1, i2⟩, i3, ⟨i4, i5⟩, i6⟩ := ih h2
    unfold goldenCore at h1
    by_cases hd : a.1.2.2.2 = d
    · rw [if_pos hd, bind_eq_ok] at h1
      obtain ⟨p, hp, h1⟩ := h1
      rw [bind_eq_ok] at h1
      obtain ⟨q, hq, h1⟩ := h1
      replace hp := doubleToSize_ok hp
      replace hq := doubleToSize_ok hq
      have e1 := (Out.ok.inj h1).symm
      rw [e1] at i1 i3 i4 i6
      simp only at i1 i3 i4 i6
      refine ⟨⟨by clear i3 i6; omega, ?_⟩, ?_, ⟨by clear i3 i6; omega, ?_⟩, ?_⟩
      · intro x hx hxd
        rcases List.mem_cons.mp hx with rfl | hx
        · clear i3 i6; omega
        · exact i2 x hx hxd
      · rcases i3 with i3 | ⟨x, hx, h⟩
        · clear i6
          by_cases hle : s.1 ≤ p
          · left; omega
          · right; exact ⟨a, List.mem_cons_self, hd, by omega⟩
        · right; exact ⟨x, List.mem_cons_of_mem _ hx, h⟩
      · intro x hx hxd
        rcases List.mem_cons.mp hx with rfl | hx
        · clear i3 i6; omega
        · exact i5 x hx hxd
      · rcases i6 with i6 | ⟨x, hx, h⟩
        · clear i3
          by_cases hle : q ≤ s.2
          · left; omega
          · right; exact ⟨a, List.mem_cons_self, hd, by omega⟩
        · right; exact ⟨x, List.mem_cons_of_mem _ hx, h⟩
    · rw [if_neg hd] at h1
      have e1 := (Out.ok.inj h1).symm
      rw [e1] at i1 i3 i4 i6
      refine ⟨⟨i1, ?_⟩, ?_, ⟨i4, ?_⟩, ?_⟩
      · intro x hx hxd
        rcases List.mem_cons.mp hx with rfl | hx
        · exact absurd hxd hd
        · exact i2 x hx hxd
      · exact i3.imp_right fun ⟨x, hx, h⟩ => ⟨x, List.mem_cons_of_mem _ hx, h⟩
      · intro x hx hxd
        rcases List.mem_cons.mp hx with rfl | hx
        · exact absurd hxd hd
        · exact i5 x hx hxd
      · exact i6.imp_right fun ⟨x, hx, h⟩ => ⟨x, List.mem_cons_of_mem _ hx, h⟩

/-- The window of a device with events. -/
theorem goldenDevice_span {evs : List Json} {m : CoreTimes} {t0 d a b : Int} {r : Int × Nat × Nat}
    (hm : Times evs m) (hs : Trace.Span evs d a b) (hb63 : b < 9223372036854775807) (h : goldenDevice t0 m d = .ok r) :
    r.1 = d ∧ t0 ≤ a ∧ 0 ≤ b ∧ (r.2.1 : Int) = (a - t0) % 4294967296 ∧
      (r.2.2 : Int) = (b - t0 - 20) % 4294967296 := by
  unfold goldenDevice at h
  rw [bind_eq_ok] at h
  obtain ⟨s, h1, h⟩ := h
  rw [bind_eq_ok] at h
  obtain ⟨p, hp, h⟩ := h
  rw [bind_eq_ok] at h
  obtain ⟨q, hq, h⟩ := h
  replace hp := doubleToSize_ok hp
  replace hq := doubleToSize_ok hq
  obtain ⟨⟨i1, i2⟩, i3, ⟨i4, i5⟩, i6⟩ := goldenCores_ok d m h1
  simp only at i1 i3 i4 i6
  obtain ⟨⟨⟨ea, hea, hca, hta⟩, hmin⟩, ⟨⟨eb, heb, hcb, htb⟩, hmax⟩⟩ := hs
  obtain ⟨xa, hxa, hxad, hxa1, _⟩ := hm.cover ea hea d hca
  obtain ⟨xb, hxb, hxbd, _, hxb2⟩ := hm.cover eb heb d hcb
  have la := i2 xa hxa hxad
  have lb := i5 xb hxb hxbd
  have hlt : Trace.time ea < 9223372036854775808 := intD_lt ea _ (by norm_num)
  have hltb : Trace.time eb < 9223372036854775808 := intD_lt eb _ (by norm_num)
  have ha : (s.1 : Int) = a := by
    rcases i3 with i3 | ⟨x, hx, hxd, hx1⟩
    · have : (s.1 : Int) ≤ a := by omega
      have := hmin eb heb hcb
      omega
    · obtain ⟨⟨e, he, hc, ht⟩, _⟩ := hm.sound x hx
      rw [hxd] at hc
      have := hmin e he hc
      omega
  have hb : (s.2 : Int) = b := by
    rcases i6 with i6 | ⟨x, hx, hxd, hx1⟩
    · have h0 := i5 xb hxb hxbd
      have h1 := i2 xb hxb hxbd
      have h2 : (0 : Int) ≤ s.1 := by omega
      obtain ⟨⟨e, he, hc, ht⟩, ⟨e', he', hc', ht'⟩⟩ := hm.sound xb hxb
      rw [hxbd] at hc hc'
      have := hmin e he hc
      have := hmax e he hc
      have := hmin e' he' hc'
      have := hmax e' he' hc'
      omega
    · obtain ⟨_, ⟨e, he, hc, ht⟩⟩ := hm.sound x hx
      rw [hxd] at hc
      have := hmax e he hc
      omega
  have er := (Out.ok.inj h).symm
  rw [er]
  have hab : a ≤ b := by have := hmin eb heb hcb; omega
  clear i3 i6 i2 i5 hmin hmax
  have sp : sizeToDouble s.1 = a := by unfold sizeToDouble; rw [if_neg (by omega)]; exact ha
  have sq : sizeToDouble s.2 = b := by unfold sizeToDouble; rw [if_neg (by omega)]; exact hb
  rw [sp] at hp
  rw [sq] at hq
  refine ⟨rfl, by omega, by omega, by simp only; omega, ?_⟩
  simp only [toU32_eq]
  omega

end NPE
