import Verif.Proofs.Later
import Verif.Props.Ingest

/-
Property C137: the workload of a trace does not depend on when the trace was recorded.
-/

namespace NPE.Props
open Spec Out

/-! ### C137: the time of recording does not matter -/

/-- C137 for fields that mean nothing: two traces of which the events have the same time, numbers, texts and fabric
metadata are converted to the same workload, or fail in the same way, whatever else the events contain and in whatever
order. -/
theorem C137_fields (fp : FP) (device path : String) (evs evs' : List Json) (h : List.Forall₂ (Trace.Later 0) evs evs') :
    convertTrace fp device path (.doc (.arr evs')) = convertTrace fp device path (.doc (.arr evs)) := by
  refine convert_late h fun dev _ => ?_
  have hg := golden_late h 2000000000000000000000000000000 []
  have h0 : ∀ m : CoreTimes, m.map (lateTimes 0) = m := by
    intro m
    refine (List.map_congr_left fun x _ => ?_).trans (List.map_id m)
    unfold lateTimes
    simp
  rw [h0, h0, Int.add_zero, Int.add_zero] at hg
  unfold computeGolden Json.array
  simp only [Json.asArr, bind_ok]
  rw [hg]
  cases Out.mapM (goldenDevice (evs.foldl goldenEvent (2000000000000000000000000000000, [])).1
    (evs.foldl goldenEvent (2000000000000000000000000000000, [])).2) dev.deviceIDs with
  | ok m =>
    show Out.ok _ = Out.ok (_, _ + 0)
    rw [Int.add_zero]
  | _ => rfl

/-- C137: a trace that says the same `d` cycles later (or earlier, for negative `d`) is converted to the same workload, or
fails in the same way, if every device of the model has an event and all times are numbers that doubles represent.
(Missing: silent devices, where it is violated, and times beyond 2^53.) -/
theorem C137_partial (fp : FP) (device path : String) (d : Int) (evs evs' : List Json)
    (h : List.Forall₂ (Trace.Later d) evs evs') (ht : ∀ e ∈ evs, 0 ≤ Trace.time e ∧ Trace.time e < 2 ^ 53)
    (ht' : ∀ e ∈ evs', 0 ≤ Trace.time e ∧ Trace.time e < 2 ^ 53)
    (hc : ∀ dev, createDeviceModel fp device = .ok dev → ∀ c ∈ dev.deviceIDs, ∃ e ∈ evs, Trace.Counts c e) :
    convertTrace fp device path (.doc (.arr evs')) = convertTrace fp device path (.doc (.arr evs)) ∧
      ∀ answer, createWorkload fp answer path device true (.doc (.arr evs')) =
        createWorkload fp answer path device true (.doc (.arr evs)) := by
  have key : convertTrace fp device path (.doc (.arr evs')) = convertTrace fp device path (.doc (.arr evs)) := by
    by_cases hne : evs = []
    · subst hne
      cases h
      rfl
    refine convert_late h fun dev hdev => ?_
    have hne' : evs' ≠ [] := by
      intro h0
      rw [h0] at h
      cases h
      exact hne rfl
    have hmem : ∀ e ∈ evs', ∃ e0 ∈ evs, Trace.Later d e0 e := by
      intro e he
      obtain ⟨i, hi, rfl⟩ := List.mem_iff_getElem.mp he
      have hl := h.length_eq
      exact ⟨evs[i], List.getElem_mem _, h.get (by omega) hi⟩
    have e1 := golden_first (t := 2000000000000000000000000000000) (t' := 2000000000000000000000000000000 + d) [] hne'
      (fun e he => by
        have h1 := ht' e he
        obtain ⟨x, hx, hl⟩ := hmem e he
        have h2 := ht x hx
        have h3 := hl.time
        omega)
    have hg := golden_late h 2000000000000000000000000000000 []
    have hg' : evs'.foldl goldenEvent (2000000000000000000000000000000, []) = _ := e1.trans hg
    have T := times_spec evs 2000000000000000000000000000000
    have T' := times_spec evs' 2000000000000000000000000000000
    unfold computeGolden Json.array
    simp only [Json.asArr, bind_ok]
    rw [hg'] at T' ⊢
    have hr : TimesInRange (evs.foldl goldenEvent (2000000000000000000000000000000, [])).2 := by
      intro x hx
      obtain ⟨⟨a, ha, _, ha'⟩, ⟨b, hb, _, hb'⟩⟩ := T.sound x hx
      have h1 := ht a ha
      have h2 := ht b hb
      omega
    have hr' : TimesInRange ((evs.foldl goldenEvent (2000000000000000000000000000000, [])).2.map (lateTimes d)) := by
      intro x hx
      obtain ⟨⟨a, ha, _, ha'⟩, ⟨b, hb, _, hb'⟩⟩ := T'.sound x hx
      have h1 := ht' a ha
      have h2 := ht' b hb
      omega
    rw [mapM_congr_mem (g := goldenDevice (evs.foldl goldenEvent (2000000000000000000000000000000, [])).1
      (evs.foldl goldenEvent (2000000000000000000000000000000, [])).2) fun c hcm => ?_]
    · cases Out.mapM (goldenDevice (evs.foldl goldenEvent (2000000000000000000000000000000, [])).1
        (evs.foldl goldenEvent (2000000000000000000000000000000, [])).2) dev.deviceIDs <;> rfl
    · refine goldenDevice_late hr hr' ?_
      obtain ⟨e, he, hce⟩ := hc dev hdev c hcm
      obtain ⟨x, hx, hxc, _⟩ := T.cover e he c hce
      exact ⟨x, hx, hxc⟩
  refine ⟨key, fun answer => ?_⟩
  unfold createWorkload
  rw [if_pos rfl, if_pos rfl, key]

/-- A short trace of chip 0 that begins at time `t`. -/
def beginning (t : Int) : List Json := [zoneEv t 1 2 "k" "ZONE_START", moveTo (t + 10) 1 2 "WRITE_" 3 4 64, moveTo (t + 90) 1 2 "READ" 0 1 32]

/-- The same with other fields in another order. -/
def beginning' (t : Int) : List Json :=
  [.obj [num "run_host_id" 7, num "timestamp" t, txt "zone_phase" "ZONE_START", txt "zone" "k", num "sy" 2, num "sx" 1,
    txt "proc" "BRISC", num "src_device_id" 0],
   moveEv (t + 10) 1 2 "WRITE_" [num "dy" 4, num "dx" 3, num "num_bytes" 64, txt "op_name" "matmul"],
   moveTo (t + 90) 1 2 "READ" 0 1 32]

/-- C137 is violated for devices without events: a trace of chip 0 can be converted for a board of two chips if its first
event is at time 0; one cycle later the conversion is undefined behaviour. -/
theorem C137_violated :
    (summary (convertTrace .exact "N300" "t.json" (.doc (.arr (beginning 0))))).map (·.map (·.2.2.2.1)) = some [90, 360] ∧
    convertTrace .exact "N300" "t.json" (.doc (.arr (beginning 1))) = .ub := by
  refine ⟨by decide +kernel, ?_⟩
  exact C51_violated_silent (dev := wormhole .exact true 2) (d := 1) (t0 := 1) rfl (by decide) (by decide) (by decide +kernel)
    ⟨⟨_, List.mem_cons_self, by decide +kernel⟩, by decide +kernel⟩ (by decide)

/-- A way to check the hypothesis. -/
theorem later_of_check {d : Int} {evs evs' : List Json} (hl : evs.length = evs'.length) (h : (evs.zip evs').all (fun (e, e') =>
    decide (Trace.time e' = Trace.time e + d) && Trace.numbers.all (fun k => decide (e'.int? k = e.int? k)) &&
    Trace.texts.all (fun k => decide (e'.strD k = e.strD k)) && (Trace.fabric e').isNone && (Trace.fabric e).isNone) = true) :
    List.Forall₂ (Trace.Later d) evs evs' := by
  rw [List.forall₂_iff_zip]
  refine ⟨hl, fun {e e'} hz => ?_⟩
  have := List.all_eq_true.mp h _ hz
  simp only [Bool.and_eq_true, decide_eq_true_eq, List.all_eq_true, Option.isNone_iff_eq_none] at this
  obtain ⟨⟨⟨⟨h1, h2⟩, h3⟩, h4⟩, h5⟩ := this
  exact ⟨h1, h2, h3, h4.trans h5.symm⟩

/-- The trace at time 5000 instead of 20, with other fields. -/
example : List.Forall₂ (Trace.Later 4980) (beginning 20) (beginning' 5000) := later_of_check rfl (by decide +kernel)

example : convertTrace .exact "wormhole_b0" "t.json" (.doc (.arr (beginning' 5000))) =
    convertTrace .exact "wormhole_b0" "t.json" (.doc (.arr (beginning 20))) := by
  refine (C137_partial .exact "wormhole_b0" "t.json" 4980 (beginning 20) (beginning' 5000)
    (later_of_check rfl (by decide +kernel)) (by decide +kernel) (by decide +kernel) ?_).1
  intro dev hdev c hc
  have e : wormhole .exact false 1 = dev := Out.ok.inj hdev
  rw [← e] at hc
  have hc0 : c = 0 := by simpa [Device.deviceIDs, wormhole] using hc
  subst hc0
  exact ⟨_, List.mem_cons_self, by decide +kernel⟩

/-- A trace that is not the same. -/
example : ¬ List.Forall₂ (Trace.Later 4980) (beginning 20) (beginning' 5001) := by
  intro h
  cases h with
  | cons h _ => exact absurd h.time (by decide +kernel)

end NPE.Props
