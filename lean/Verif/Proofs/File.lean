import Verif.Proofs.Trace
import Verif.Spec.File

/-
Lemmas about workload files.
-/

namespace NPE
open Spec Out

theorem int_some {t : Json} {k : String} {n : Int} (h : t.int? k = some n) (d : Int) :
    File.Has t k ∧ t.intD k d = n := by
  unfold File.Has Json.intD
  rw [h]
  exact ⟨nofun, rfl⟩

/-- One entry: skipped exactly if it is not complete. -/
theorem loadTransfer_ok {fp : FP} {t : Json} {r : Option Transfer} (h : loadTransfer fp t = .ok r) :
    (File.Complete t ∧ ∃ x, r = some x ∧ File.content x = File.entry fp t) ∨ (¬ File.Complete t ∧ r = none) := by
  unfold loadTransfer at h
  cases h1 : t.int? "packet_size" with
  | none =>
    rw [h1] at h; simp only at h
    exact Or.inr ⟨fun hc => hc.1.1 h1, (Out.ok.inj h).symm⟩
  | some ps =>
  cases h2 : t.int? "num_packets" with
  | none =>
    rw [h1, h2] at h; simp only at h
    exact Or.inr ⟨fun hc => hc.1.2.1 h2, (Out.ok.inj h).symm⟩
  | some np =>
  cases h3 : t.int? "src_x" with
  | none =>
    rw [h1, h2, h3] at h; simp only at h
    exact Or.inr ⟨fun hc => hc.1.2.2.1 h3, (Out.ok.inj h).symm⟩
  | some sx =>
  cases h4 : t.int? "src_y" with
  | none =>
    rw [h1, h2, h3, h4] at h; simp only at h
    exact Or.inr ⟨fun hc => hc.1.2.2.2 h4, (Out.ok.inj h).symm⟩
  | some sy =>
  rw [h1, h2, h3, h4] at h
  simp only at h
  rw [bind_eq_ok] at h
  obtain ⟨d, hd, h⟩ := h
  have hdest : (d = none ∧ ¬ File.Unicast t ∧ ¬ File.Multicast t) ∨
      (d = some (File.entry fp t).dst ∧ (File.Unicast t ∨ File.Multicast t)) := by
    by_cases hu : t.intD "dst_x" (-1) = -1 ∧ t.intD "dst_y" (-1) = -1
    · have hnu : ¬ File.Unicast t := by unfold File.Unicast; tauto
      rw [if_pos hu] at hd
      cases m1 : t.int? "mcast_start_x" with
      | none =>
        rw [m1] at hd; simp only at hd
        exact Or.inl ⟨(Out.ok.inj hd).symm, hnu, fun hm => hm.1 m1⟩
      | some a =>
      cases m2 : t.int? "mcast_start_y" with
      | none =>
        rw [m1, m2] at hd; simp only at hd
        exact Or.inl ⟨(Out.ok.inj hd).symm, hnu, fun hm => hm.2.1 m2⟩
      | some b =>
      cases m3 : t.int? "mcast_end_x" with
      | none =>
        rw [m1, m2, m3] at hd; simp only at hd
        exact Or.inl ⟨(Out.ok.inj hd).symm, hnu, fun hm => hm.2.2.1 m3⟩
      | some c =>
      cases m4 : t.int? "mcast_end_y" with
      | none =>
        rw [m1, m2, m3, m4] at hd; simp only at hd
        exact Or.inl ⟨(Out.ok.inj hd).symm, hnu, fun hm => hm.2.2.2 m4⟩
      | some e =>
      rw [m1, m2, m3, m4] at hd
      simp only at hd
      rw [bind_eq_ok] at hd
      obtain ⟨gs, hgs, hd⟩ := hd
      refine Or.inr ⟨?_, Or.inr ⟨(int_some m1 0).1, (int_some m2 0).1, (int_some m3 0).1, (int_some m4 0).1⟩⟩
      rw [← Out.ok.inj hd, mkMcast_ok hgs]
      unfold File.entry
      simp only
      rw [if_neg hnu, (int_some m1 0).2, (int_some m2 0).2, (int_some m3 0).2, (int_some m4 0).2, mkCoord_eq, mkCoord_eq]
    · rw [if_neg hu] at hd
      have hyu : File.Unicast t := by unfold File.Unicast; tauto
      refine Or.inr ⟨?_, Or.inl hyu⟩
      rw [← Out.ok.inj hd]
      unfold File.entry
      simp only
      rw [if_pos hyu, mkCoord_eq]
  rcases hdest with ⟨rfl, hu, hm⟩ | ⟨rfl, hum⟩
  · simp only at h
    exact Or.inr ⟨fun hc => hc.2.1.elim hu hm, (Out.ok.inj h).symm⟩
  · simp only at h
    cases hn : (t.field "noc_type").bind Json.asStr with
    | none =>
      rw [hn] at h; simp only at h
      exact Or.inr ⟨fun hc => hc.2.2 hn, (Out.ok.inj h).symm⟩
    | some n =>
      rw [hn] at h; simp only at h
      have hn' : File.noc? t = some n := hn
      refine Or.inl ⟨⟨⟨(int_some h1 0).1, (int_some h2 0).1, (int_some h3 0).1, (int_some h4 0).1⟩, hum,
        by rw [hn']; exact nofun⟩, _, (Out.ok.inj h).symm, ?_⟩
      unfold File.content Transfer.make
      simp only [toU32_eq, mkCoord_eq]
      unfold File.entry
      simp only
      rw [hn', (int_some h1 0).2, (int_some h2 0).2, (int_some h3 0).2, (int_some h4 0).2]
      rfl

theorem loadTransfers_ok {fp : FP} {ts : List Json} {l : List (Option Transfer)}
    (h : mapM (loadTransfer fp) ts = .ok l) :
    (l.filterMap id).map File.content = (ts.filter File.Complete).map (File.entry fp) := by
  rw [Out.mapM_eq_ok] at h
  induction h with
  | nil => rfl
  | @cons t r ts l h1 _ ih =>
    rcases loadTransfer_ok h1 with ⟨hc, x, rfl, hx⟩ | ⟨hc, rfl⟩
    · rw [List.filter_cons_of_pos (by simpa using hc)]
      rw [List.filterMap_cons_some (f := id) (a := some x) (b := x) rfl, List.map_cons, List.map_cons, hx, ih]
    · rw [List.filter_cons_of_neg (by simpa using hc)]
      simpa using ih

/-- All phases. -/
theorem loadPhases_ok {fp : FP} {phs : List Json} : ∀ {wl wl' : Workload},
    foldlM (loadPhase fp) wl phs = .ok wl' →
    List.Forall₂ (fun ph p => ∃ ts, File.list? ph "transfers" = some ts ∧
      p.transfers.map File.content = (ts.filter File.Complete).map (File.entry fp)) phs (wl'.phases.drop wl.phases.length) ∧
    wl.phases <+: wl'.phases ∧ wl'.golden = wl.golden ∧ wl'.zones = wl.zones ∧
      wl'.numTransferGroups = wl.numTransferGroups := by
  induction phs with
  | nil =>
    intro wl wl' h
    rw [foldlM_nil] at h
    rw [← Out.ok.inj h]
    simp
  | cons ph phs ih =>
    intro wl wl' h
    rw [foldlM_cons, bind_eq_ok] at h
    obtain ⟨w1, h1, h2⟩ := h
    obtain ⟨i1, i2, i3, i4, i5⟩ := ih h2
    unfold loadPhase at h1
    cases hts : (ph.field "transfers").bind Json.asArr with
    | none => rw [hts] at h1; exact absurd h1 nofun
    | some ts =>
      rw [hts] at h1
      simp only at h1
      rw [bind_eq_ok] at h1
      obtain ⟨l, hl, h1⟩ := h1
      have e1 := (Out.ok.inj h1).symm
      obtain ⟨np, hph, hnp⟩ : ∃ np : Phase, w1.phases = wl.phases ++ [np] ∧
          np.transfers.map File.content = (ts.filter File.Complete).map (File.entry fp) := by
        refine ⟨_, by rw [e1]; rfl, ?_⟩
        simp only
        rw [assignIds_map _ (fun _ _ _ => rfl)]
        exact loadTransfers_ok hl
      refine ⟨?_, ?_, by rw [i3, e1]; rfl, by rw [i4, e1]; rfl, by rw [i5, e1]; rfl⟩
      · obtain ⟨rest, hrest⟩ := i2
        rw [← hrest, List.drop_left' rfl] at i1
        rw [← hrest, hph, List.append_assoc, List.drop_left' rfl]
        exact List.Forall₂.cons ⟨ts, hts, hnp⟩ i1
      · rw [hph] at i2
        exact (List.prefix_append _ _).trans i2

/-! ### Outcomes -/

namespace Out

/-- A value, an exception of the estimator, or undefined behaviour. -/
def Tame {α : Type} : Out α → Prop
  | .ok _ => True
  | .exc _ => True
  | .ub => True
  | _ => False

theorem Tame.bind {α β : Type} {x : Out α} {f : α → Out β} (hx : Tame x) (hf : ∀ a, x = .ok a → Tame (f a)) :
    Tame (x >>= f) := by
  cases x with
  | ok a => exact hf a rfl
  | exc e => trivial
  | ub => trivial
  | std e => exact hx
  | exit => exact hx
  | diverge => exact hx

theorem Tame.foldlM {α σ : Type} {f : σ → α → Out σ} (hf : ∀ s a, Tame (f s a)) :
    ∀ (l : List α) (s : σ), Tame (Out.foldlM f s l) := by
  intro l
  induction l with
  | nil => intro s; trivial
  | cons a l ih => intro s; rw [foldlM_cons]; exact (hf s a).bind fun b _ => ih b

theorem Tame.mapM {α β : Type} {f : α → Out β} (hf : ∀ a, Tame (f a)) (l : List α) : Tame (Out.mapM f l) := by
  induction l with
  | nil => trivial
  | cons a l ih =>
    unfold Out.mapM
    exact (hf a).bind fun b _ => ih.bind fun _ _ => trivial

theorem Tame.assert (c : Bool) : Tame (Out.assert c) := by cases c <;> trivial

end Out

theorem deref_tame {α : Type} (o : Option α) : Tame (deref o) := by cases o <;> trivial

theorem doubleToSize_tame (x : Int) : Tame (doubleToSize x) := by
  unfold doubleToSize; split <;> trivial

theorem next_tame (zs : List Zone) (it : ZoneIter) : Tame (it.next zs) := by
  unfold ZoneIter.next
  repeat' split
  all_goals trivial

theorem next_idx {zs : List Zone} {it it' : ZoneIter} {z : Zone} (hz : zs[it.idx]? = some z) (h : it.next zs = .ok it') :
    it'.idx = it.idx + 1 := by
  unfold ZoneIter.next at h
  rw [hz] at h
  simp only at h
  repeat' split at h
  all_goals first | (rw [← Out.ok.inj h]) | exact absurd h nofun

theorem advance_tame (zs : List Zone) (t : Int) : ∀ (fuel : Nat) (it : ZoneIter), 0 < fuel →
    zs.length < it.idx + fuel → Tame (it.advance zs t fuel) := by
  intro fuel
  induction fuel with
  | zero => intro it h; omega
  | succ n ih =>
    intro it _ hlt
    unfold ZoneIter.advance
    split
    · trivial
    · cases hz : zs[it.idx]? with
      | none => trivial
      | some z =>
        simp only
        split
        · refine (next_tame zs it).bind fun it' h' => ?_
          have hi := next_idx hz h'
          have := (List.getElem?_eq_some_iff.mp hz).1
          exact ih it' (by omega) (by omega)
        · trivial

theorem zoneIterFor_tame (zones : ZoneMap) (cp : Coord × RiscType) (t : Int) (s : ConvState) :
    Tame (zoneIterFor zones cp t s) := by
  unfold zoneIterFor
  split
  · trivial
  · simp only
    split
    · trivial
    · rename_i l it _
      have := advance_tame l t (l.length - it.idx + 1) it (by omega) (by omega)
      cases h : it.advance l t (l.length - it.idx + 1) <;> rw [h] at this <;> exact this

theorem mkMcast_tame (a b : Coord) : Tame (mkMcast a b) := by
  unfold mkMcast
  exact (Tame.assert _).bind fun _ _ => (Tame.assert _).bind fun _ _ => trivial

theorem plainEvent_tame (arch : Arch) (t0 : Int) (s : ConvState) (e : Json) : Tame (plainEvent arch t0 s e) := by
  unfold plainEvent
  simp only
  split
  · trivial
  · refine Tame.bind ?_ ?_
    · unfold eventDest
      simp only
      split
      · split
        · trivial
        · split
          · exact (mkMcast_tame _ _).bind fun _ _ => trivial
          · split
            · exact (mkMcast_tame _ _).bind fun _ _ => trivial
            · trivial
      · trivial
    · intro d _
      cases d <;> trivial

theorem fabricRoute_tame (ev : FabEvent) (s : FabState) (r : Json) : Tame (fabricRoute ev s r) := by
  unfold fabricRoute
  refine Tame.bind ?_ fun _ _ => trivial
  unfold fabricLatency
  repeat' split
  all_goals trivial

theorem convEvent_tame (arch : Arch) (t0 : Int) (zones : ZoneMap) (s : ConvState) (e : Json) :
    Tame (convEvent arch t0 zones s e) := by
  unfold convEvent zoneStep
  refine Tame.bind ?_ ?_
  · exact (deref_tame _).bind fun _ _ => (zoneIterFor_tame _ _ _ _).bind fun _ _ =>
      (deref_tame _).bind fun _ _ => trivial
  · intro p _
    unfold convBody
    split
    · trivial
    · split
      · trivial
      · refine (plainEvent_tame _ _ _ _).bind fun x _ => ?_
        cases x with
        | none => trivial
        | some x =>
          simp only
          split
          · unfold fabricEvent
            split
            · trivial
            · exact (Tame.foldlM (fabricRoute_tame _) _ _).bind fun _ _ => trivial
          · trivial

/-- Converting a list of events never ends with a foreign exception. -/
theorem convertTrace_tame (fp : FP) (device path : String) (evs : List Json) :
    Tame (convertTrace fp device path (.doc (.arr evs))) := by
  unfold convertTrace
  refine Tame.bind ?_ fun dev _ => ?_
  · unfold createDeviceModel
    repeat' split
    all_goals trivial
  refine Tame.bind ?_ fun g _ => ?_
  · unfold computeGolden
    refine Tame.bind (by trivial) fun l _ => Tame.bind (Tame.mapM (fun d => ?_) _) fun _ _ => trivial
    unfold goldenDevice
    refine Tame.bind (Tame.foldlM (fun s x => ?_) _ _) fun s _ => (doubleToSize_tame _).bind fun _ _ =>
      (doubleToSize_tame _).bind fun _ _ => trivial
    unfold goldenCore
    split
    · exact (doubleToSize_tame _).bind fun _ _ => (doubleToSize_tame _).bind fun _ _ => trivial
    · trivial
  simp only
  refine Tame.bind ?_ fun zones _ => ?_
  · unfold extractZones
    refine Tame.bind (by trivial) fun l _ => Tame.foldlM (fun m e => ?_) _ _
    unfold zoneEvent
    simp only
    split
    · exact (deref_tame _).bind fun _ _ => (deref_tame _).bind fun _ _ => trivial
    · trivial
  refine Tame.bind (by trivial) fun l _ => ?_
  exact (Tame.foldlM (convEvent_tame _ _ _) _ _).bind fun _ _ => trivial

/-- No undefined behaviour, no exit and no endless loop. -/
def Clean {α : Type} : Out α → Prop
  | .ok _ => True
  | .exc _ => True
  | .std _ => True
  | _ => False

theorem Clean.bind {α β : Type} {x : Out α} {f : α → Out β} (hx : Clean x) (hf : ∀ a, x = .ok a → Clean (f a)) :
    Clean (x >>= f) := by
  cases x with
  | ok a => exact hf a rfl
  | exc e => trivial
  | std e => trivial
  | ub => exact hx
  | exit => exact hx
  | diverge => exact hx

theorem Clean.foldlM {α σ : Type} {f : σ → α → Out σ} (hf : ∀ s a, Clean (f s a)) :
    ∀ (l : List α) (s : σ), Clean (Out.foldlM f s l) := by
  intro l
  induction l with
  | nil => intro s; trivial
  | cons a l ih => intro s; rw [Out.foldlM_cons]; exact (hf s a).bind fun b _ => ih b

theorem Clean.mapM {α β : Type} {f : α → Out β} (hf : ∀ a, Clean (f a)) (l : List α) : Clean (Out.mapM f l) := by
  induction l with
  | nil => trivial
  | cons a l ih =>
    unfold Out.mapM
    exact (hf a).bind fun b _ => ih.bind fun _ _ => trivial

theorem mkMcast_clean (a b : Coord) : Clean (mkMcast a b) := by
  unfold mkMcast
  refine Clean.bind ?_ fun _ _ => Clean.bind ?_ fun _ _ => trivial
  · unfold Out.assert; split <;> trivial
  · unfold Out.assert; split <;> trivial

theorem loadTransfer_clean (fp : FP) (t : Json) : Clean (loadTransfer fp t) := by
  unfold loadTransfer
  split
  · refine Clean.bind ?_ fun d _ => ?_
    · split
      · split
        · exact (mkMcast_clean _ _).bind fun _ _ => trivial
        · trivial
      · trivial
    · cases d with
      | none => trivial
      | some d =>
        simp only
        split <;> trivial
  · trivial

theorem loadDocument_clean (fp : FP) (j : Json) : Clean (loadDocument fp j) := by
  unfold loadDocument
  split
  · refine Clean.bind ?_ fun wl _ => ?_
    · unfold loadGolden
      split
      · trivial
      · split <;> trivial
    · split
      · trivial
      · refine Clean.bind (Clean.foldlM (fun s a => ?_) _ _) fun _ _ => trivial
        unfold loadPhase
        split
        · trivial
        · exact (Clean.mapM (loadTransfer_clean fp) _).bind fun _ _ => trivial
  · trivial

end NPE
