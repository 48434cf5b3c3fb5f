import Verif.Proofs.Trace
import Verif.Spec.Later

/-
Traces that say the same at a later time are converted to the same workload.
-/

namespace NPE
open Spec Out

/-- Times of a core, `d` cycles later. -/
def lateTimes (d : Int) (x : (String × Int × Int × Int) × Int × Int) : (String × Int × Int × Int) × Int × Int :=
  (x.1, x.2.1 + d, x.2.2 + d)

theorem add_late (d : Int) (m : CoreTimes) (k : String × Int × Int × Int) (ts : Int) :
    CoreTimes.add (m.map (lateTimes d)) k (ts + d) = (m.add k ts).map (lateTimes d) := by
  induction m with
  | nil => rfl
  | cons e m ih =>
    rw [List.map_cons, CoreTimes.add, CoreTimes.add]
    by_cases h : e.1 = k
    · rw [if_pos (show (lateTimes d e).1 = k from h), if_pos h]
      simp only [lateTimes, List.map_cons]
      rw [min_add_add_right, max_add_add_right]
    · rw [if_neg (show ¬ (lateTimes d e).1 = k from h), if_neg h, List.map_cons, ih]

section
variable {d : Int} {e e' : Json}

theorem Later.intD (h : Trace.Later d e e') {k : String} (hk : k ∈ Trace.numbers) (x : Int) : e'.intD k x = e.intD k x := by
  unfold Json.intD
  rw [h.numbers k hk]

theorem goldenEvent_late (h : Trace.Later d e e') (t : Int) (m : CoreTimes) :
    goldenEvent (t + d, m.map (lateTimes d)) e' = ((goldenEvent (t, m) e).1 + d, (goldenEvent (t, m) e).2.map (lateTimes d)) := by
  have h1 : e'.strD "proc" = e.strD "proc" := h.texts _ (by simp [Trace.texts])
  have h2 : e'.intD "sx" (-1) = e.intD "sx" (-1) := Later.intD h (by simp [Trace.numbers]) _
  have h3 : e'.intD "sy" (-1) = e.intD "sy" (-1) := Later.intD h (by simp [Trace.numbers]) _
  have h4 : e'.intD "src_device_id" (-1) = e.intD "src_device_id" (-1) := Later.intD h (by simp [Trace.numbers]) _
  have h5 : e'.intD "timestamp" 0 = e.intD "timestamp" 0 + d := h.time
  unfold goldenEvent
  simp only [h1, h2, h3, h4, h5, min_add_add_right, add_late]
  split <;> rfl

theorem golden_late {evs evs' : List Json} (h : List.Forall₂ (Trace.Later d) evs evs') (t : Int) (m : CoreTimes) :
    evs'.foldl goldenEvent (t + d, m.map (lateTimes d)) =
      ((evs.foldl goldenEvent (t, m)).1 + d, (evs.foldl goldenEvent (t, m)).2.map (lateTimes d)) := by
  induction h generalizing t m with
  | nil => rfl
  | cons h _ ih =>
    rw [List.foldl_cons, List.foldl_cons, goldenEvent_late h]
    exact ih _ _

/-- From the first event on, the start value of the time origin does not matter. -/
theorem golden_first {evs : List Json} {t t' : Int} (m : CoreTimes) (hne : evs ≠ []) (h : ∀ e ∈ evs, Trace.time e ≤ t ∧ Trace.time e ≤ t') :
    evs.foldl goldenEvent (t, m) = evs.foldl goldenEvent (t', m) := by
  cases evs with
  | nil => exact absurd rfl hne
  | cons e evs =>
    rw [List.foldl_cons, List.foldl_cons]
    obtain ⟨h1, h2⟩ := h e List.mem_cons_self
    have : goldenEvent (t, m) e = goldenEvent (t', m) e := by
      unfold goldenEvent
      unfold Trace.time at h1 h2
      simp only
      rw [min_eq_right h1, min_eq_right h2]
    rw [this]

/-- Entries of the table with both times in range. -/
def TimesInRange (m : CoreTimes) : Prop := ∀ x ∈ m, 0 ≤ x.2.1 ∧ x.2.1 < 2 ^ 53 ∧ 0 ≤ x.2.2 ∧ x.2.2 < 2 ^ 53

/-- How the windows of two tables are related after some cores. -/
def Windows (d : Int) (s s' : Nat × Nat) : Prop :=
  (s = (9223372036854775807, 0) ∧ s' = s) ∨
  ((s'.1 : Int) = s.1 + d ∧ (s'.2 : Int) = s.2 + d ∧ s.1 < 2 ^ 53 ∧ s.2 < 2 ^ 53 ∧ s'.1 < 2 ^ 53 ∧ s'.2 < 2 ^ 53)

theorem doubleToSize_of {x : Int} (h : 0 ≤ x) (h2 : x < 2 ^ 53) : doubleToSize x = .ok x.toNat := by
  unfold doubleToSize
  rw [if_pos ⟨h, by omega⟩]

theorem goldenCore_late {c : Int} {m : CoreTimes} (hr : TimesInRange m) (hr' : TimesInRange (m.map (lateTimes d))) {s s' : Nat × Nat}
    (h : Windows d s s') : ∃ r r', foldlM (goldenCore c) s m = .ok r ∧ foldlM (goldenCore c) s' (m.map (lateTimes d)) = .ok r' ∧
      Windows d r r' ∧ ((∃ x ∈ m, x.1.2.2.2 = c) → r ≠ (9223372036854775807, 0)) ∧ (s ≠ (9223372036854775807, 0) → r ≠ (9223372036854775807, 0)) := by
  induction m generalizing s s' with
  | nil => exact ⟨s, s', rfl, rfl, h, by simp, fun h => h⟩
  | cons x m ih =>
    have hm : TimesInRange m := fun y hy => hr y (List.mem_cons_of_mem _ hy)
    have hm' : TimesInRange (m.map (lateTimes d)) := fun y hy => hr' y (List.mem_cons_of_mem _ hy)
    obtain ⟨a1, a2, a3, a4⟩ := hr x List.mem_cons_self
    obtain ⟨b1, b2, b3, b4⟩ := hr' (lateTimes d x) List.mem_cons_self
    simp only [lateTimes] at b1 b2 b3 b4
    rw [List.map_cons, foldlM_cons, foldlM_cons]
    by_cases hx : x.1.2.2.2 = c
    · have e1 : goldenCore c s x = .ok (min s.1 x.2.1.toNat, max s.2 x.2.2.toNat) := by
        unfold goldenCore
        rw [if_pos hx, doubleToSize_of a1 a2, bind_ok, doubleToSize_of a3 a4, bind_ok]
        rfl
      have e2 : goldenCore c s' (lateTimes d x) = .ok (min s'.1 (x.2.1 + d).toNat, max s'.2 (x.2.2 + d).toNat) := by
        unfold goldenCore lateTimes
        rw [if_pos hx, doubleToSize_of b1 b2, bind_ok, doubleToSize_of b3 b4, bind_ok]
        rfl
      rw [e1, e2, bind_ok, bind_ok]
      have hw : Windows d (min s.1 x.2.1.toNat, max s.2 x.2.2.toNat) (min s'.1 (x.2.1 + d).toNat, max s'.2 (x.2.2 + d).toNat) := by
        right
        rcases h with ⟨rfl, rfl⟩ | ⟨h1, h2, h3, h4, h5, h6⟩
        · refine ⟨?_, ?_, ?_, ?_, ?_, ?_⟩ <;> simp only <;> omega
        · refine ⟨?_, ?_, ?_, ?_, ?_, ?_⟩ <;> simp only <;> omega
      have hne : (min s.1 x.2.1.toNat, max s.2 x.2.2.toNat) ≠ (9223372036854775807, 0) := by
        intro h
        have := congrArg Prod.fst h
        simp only at this
        omega
      obtain ⟨r, r', f1, f2, f3, _, f5⟩ := ih hm hm' hw
      exact ⟨r, r', f1, f2, f3, fun _ => f5 hne, fun _ => f5 hne⟩
    · have e1 : goldenCore c s x = .ok s := by
        unfold goldenCore; rw [if_neg hx]
      have e2 : goldenCore c s' (lateTimes d x) = .ok s' := by
        unfold goldenCore; rw [if_neg (show ¬ (lateTimes d x).1.2.2.2 = c from hx)]
      rw [e1, e2, bind_ok, bind_ok]
      obtain ⟨r, r', f1, f2, f3, f4, f5⟩ := ih hm hm' h
      refine ⟨r, r', f1, f2, f3, ?_, f5⟩
      rintro ⟨y, hy, hyc⟩
      rcases List.mem_cons.mp hy with rfl | hy
      · exact absurd hyc hx
      · exact f4 ⟨y, hy, hyc⟩

theorem goldenDevice_late {c t0 : Int} {m : CoreTimes} (hr : TimesInRange m) (hr' : TimesInRange (m.map (lateTimes d)))
    (hc : ∃ x ∈ m, x.1.2.2.2 = c) : goldenDevice (t0 + d) (m.map (lateTimes d)) c = goldenDevice t0 m c := by
  obtain ⟨r, r', h1, h2, h3, h4, _⟩ := goldenCore_late (c := c) hr hr' (Or.inl ⟨rfl, rfl⟩)
  unfold goldenDevice
  rw [h1, h2, bind_ok, bind_ok]
  rcases h3 with ⟨h5, _⟩ | ⟨h5, h6, h7, h8, h9, h10⟩
  · exact absurd h5 (h4 hc)
  · have q : ∀ n : Nat, n < 2 ^ 53 → sizeToDouble n = n := by
      intro n hn
      unfold sizeToDouble
      rw [if_neg (by omega)]
    rw [q _ h7, q _ h8, q _ h9, q _ h10, h5, h6]
    have g1 : (r.1 : Int) + d - (t0 + d) = r.1 - t0 := by ring
    have g2 : (r.2 : Int) + d - (t0 + d) = r.2 - t0 := by ring
    rw [g1, g2]

theorem mapM_congr_mem {α β : Type} {f g : α → Out β} {l : List α} (h : ∀ x ∈ l, f x = g x) : Out.mapM f l = Out.mapM g l := by
  induction l with
  | nil => rfl
  | cons a l ih =>
    unfold Out.mapM
    rw [h a List.mem_cons_self, ih fun x hx => h x (List.mem_cons_of_mem _ hx)]

theorem zoneEvent_late (h : Trace.Later d e e') (t0 : Int) (m : ZoneMap) : zoneEvent (t0 + d) m e' = zoneEvent t0 m e := by
  have h1 : e'.strD "proc" = e.strD "proc" := h.texts _ (by simp [Trace.texts])
  have h2 : e'.intD "sx" (-1) = e.intD "sx" (-1) := Later.intD h (by simp [Trace.numbers]) _
  have h3 : e'.intD "sy" (-1) = e.intD "sy" (-1) := Later.intD h (by simp [Trace.numbers]) _
  have h4 : e'.intD "src_device_id" 0 = e.intD "src_device_id" 0 := Later.intD h (by simp [Trace.numbers]) _
  have h5 : e'.intD "timestamp" 0 - (t0 + d) = e.intD "timestamp" 0 - t0 := by
    have h5 : e'.intD "timestamp" 0 = e.intD "timestamp" 0 + d := h.time
    rw [h5]; ring
  have h6 : e'.strD "zone" = e.strD "zone" := h.texts _ (by simp [Trace.texts])
  have h7 : e'.strD "zone_phase" = e.strD "zone_phase" := h.texts _ (by simp [Trace.texts])
  unfold zoneEvent
  rw [h1, h2, h3, h4, h5, h6, h7]

theorem convEvent_late (h : Trace.Later d e e') (arch : Arch) (t0 : Int) (zones : ZoneMap) (s : ConvState) :
    convEvent arch (t0 + d) zones s e' = convEvent arch t0 zones s e := by
  have s1 : e'.strD "proc" = e.strD "proc" := h.texts _ (by simp [Trace.texts])
  have s2 : e'.strD "type" = e.strD "type" := h.texts _ (by simp [Trace.texts])
  have s3 : e'.strD "noc" = e.strD "noc" := h.texts _ (by simp [Trace.texts])
  have n1 := fun x => Later.intD h (k := "sx") (by simp [Trace.numbers]) x
  have n2 := fun x => Later.intD h (k := "sy") (by simp [Trace.numbers]) x
  have n3 := fun x => Later.intD h (k := "dx") (by simp [Trace.numbers]) x
  have n4 := fun x => Later.intD h (k := "dy") (by simp [Trace.numbers]) x
  have n5 := fun x => Later.intD h (k := "num_bytes") (by simp [Trace.numbers]) x
  have n6 := fun x => Later.intD h (k := "src_device_id") (by simp [Trace.numbers]) x
  have n7 := fun x => Later.intD h (k := "dst_device_id") (by simp [Trace.numbers]) x
  have m1 := fun x => Later.intD h (k := "mcast_start_x") (by simp [Trace.numbers]) x
  have m2 := fun x => Later.intD h (k := "mcast_start_y") (by simp [Trace.numbers]) x
  have m3 := fun x => Later.intD h (k := "mcast_end_x") (by simp [Trace.numbers]) x
  have m4 := fun x => Later.intD h (k := "mcast_end_y") (by simp [Trace.numbers]) x
  have h5 : e'.intD "timestamp" 0 - (t0 + d) = e.intD "timestamp" 0 - t0 := by
    have h5 : e'.intD "timestamp" 0 = e.intD "timestamp" 0 + d := h.time
    rw [h5]; ring
  have hz : zoneStep (t0 + d) zones s e' = zoneStep t0 zones s e := by
    unfold zoneStep; rw [s1, n1, n2, n6, h5]
  have hf : (e'.field "fabric_send").bind Json.asObj = (e.field "fabric_send").bind Json.asObj := h.fabric
  have hsk : skipped e' = skipped e := by unfold skipped; rw [s1, s2, n5]
  have hd : eventDest e' = eventDest e := by
    funext a b c v
    unfold eventDest
    simp only [m1, m2, m3, m4]
  have hb : ∀ p : ConvState × String, convBody arch (t0 + d) p.2 p.1 e' = convBody arch t0 p.2 p.1 e := by
    intro p
    have hsv : saveState p.1 e' = saveState p.1 e := by unfold saveState; rw [s2, n1, n2, n3, n4, n5]
    have hpl : plainEvent arch (t0 + d) p.1 e' = plainEvent arch t0 p.1 e := by
      unfold plainEvent; simp only [s2, s3, n1, n2, n3, n4, n5, n6, n7, h5, hd]
    have hpt : ∀ z q, plainTransfer z e' q = plainTransfer z e q := by
      intro z q; unfold plainTransfer; rw [s2, n6]
    have hfe : ∀ z q f, fabricEvent arch z p.1 e' q f = fabricEvent arch z p.1 e q f := by
      intro z q f; unfold fabricEvent; rw [s2]
    unfold convBody
    rw [hsk, s2, hsv, hpl, hf]
    simp only [hpt, hfe]
  unfold convEvent
  rw [hz]
  exact congrArg _ (funext hb)

theorem foldlM_late {σ : Type} {f f' : σ → Json → Out σ} {evs evs' : List Json} (h : List.Forall₂ (Trace.Later d) evs evs')
    (hf : ∀ e e', Trace.Later d e e' → ∀ s, f' s e' = f s e) (s : σ) : foldlM f' s evs' = foldlM f s evs := by
  induction h generalizing s with
  | nil => rfl
  | cons h _ ih =>
    rw [foldlM_cons, foldlM_cons, hf _ _ h]
    exact congrArg _ (funext ih)

/-- The conversion, given that the golden windows agree. -/
theorem convert_late {fp : FP} {device path : String} {evs evs' : List Json} (h : List.Forall₂ (Trace.Later d) evs evs')
    (hg : ∀ dev, createDeviceModel fp device = .ok dev →
      computeGolden dev (.arr evs') = (computeGolden dev (.arr evs) >>= fun r => .ok (r.1, r.2 + d))) :
    convertTrace fp device path (.doc (.arr evs')) = convertTrace fp device path (.doc (.arr evs)) := by
  unfold convertTrace
  cases hdev : createDeviceModel fp device with
  | ok dev =>
    simp only [bind_ok]
    rw [hg dev hdev]
    cases computeGolden dev (.arr evs) with
    | ok r =>
      obtain ⟨g, t0⟩ := r
      simp only [bind_ok]
      have hz : extractZones (t0 + d) (.arr evs') = extractZones t0 (.arr evs) := by
        unfold extractZones Json.array
        simp only [Json.asArr, bind_ok]
        exact foldlM_late h (fun e e' h s => zoneEvent_late h t0 s) _
      rw [hz]
      refine congrArg _ (funext fun zones => ?_)
      show (foldlM (convEvent dev.arch (t0 + d) zones) {} evs' >>= _) = (foldlM (convEvent dev.arch t0 zones) {} evs >>= _)
      rw [foldlM_late h (fun e e' h s => convEvent_late h dev.arch t0 zones s)]
    | _ => rfl
  | _ => rfl

end
end NPE
