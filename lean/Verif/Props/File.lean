import Verif.Proofs.File
import Verif.Props.Ingest

/-
Properties C61, C70, C71: workload files.
-/

namespace NPE.Props
open Spec Out

/-! ### C70: what a file contains is what is loaded -/

/-- C70.  A loaded workload has one phase for each phase of the file, in order; the transfers of a phase are
those described by the complete entries of its list, in order, and no others; the golden window is the one of
the file. -/
theorem C70_loaded {fp : FP} {answer : Bool} {path : String} {j : Json} {wl : Workload}
    (h : loadJSONWorkload fp answer path (.doc j) = .ok (some wl)) :
    ∃ phs, File.list? j "phases" = some phs ∧
      List.Forall₂ (fun ph p => ∃ ts, File.list? ph "transfers" = some ts ∧
        p.transfers.map File.content = (ts.filter File.Complete).map (File.entry fp)) phs wl.phases ∧
      wl.sourcePath = some path ∧
      (match (j.field "golden_result").bind (Json.field "cycles") with
        | none => wl.golden = []
        | some c => ∃ n : Nat, c.asUint = some n ∧ wl.golden.lookup 0 = some (0, n % 2^32)) := by
  unfold loadJSONWorkload at h
  simp only at h
  split at h
  · exact absurd (Out.ok.inj h) nofun
  rw [bind_eq_ok] at h
  obtain ⟨r, hr, h⟩ := h
  replace h := Out.ok.inj h
  cases r with
  | none => exact absurd h nofun
  | some w =>
    rw [Option.map_some] at h
    replace h := (Option.some.inj h).symm
    have hld : loadDocument fp j = .ok (some w) := by
      unfold catchStd at hr
      split at hr
      · exact absurd (Out.ok.inj hr) nofun
      · exact hr
    unfold loadDocument at hld
    split at hld
    swap
    · exact absurd (Out.ok.inj hld) nofun
    rename_i o
    rw [bind_eq_ok] at hld
    obtain ⟨w0, hw0, hld⟩ := hld
    cases hp : ((Json.obj o).field "phases").bind Json.asArr with
    | none => rw [hp] at hld; exact absurd (Out.ok.inj hld) nofun
    | some phs =>
      rw [hp] at hld
      simp only at hld
      rw [bind_eq_ok] at hld
      obtain ⟨w1, hw1, hld⟩ := hld
      have e1 := Option.some.inj (Out.ok.inj hld)
      obtain ⟨i1, i2, i3, i4, i5⟩ := loadPhases_ok hw1
      refine ⟨phs, hp, ?_, by rw [h], ?_⟩
      · rw [h, ← e1]
        have h0 : w0.phases = [] := by
          unfold loadGolden at hw0
          split at hw0
          · rw [← Out.ok.inj hw0]
          · split at hw0
            · exact absurd hw0 nofun
            · rw [← Out.ok.inj hw0]; rfl
        rw [h0] at i1
        exact i1
      · rw [h, ← e1]
        simp only
        rw [i3]
        unfold loadGolden at hw0
        split at hw0
        · rename_i hg
          rw [hg, ← Out.ok.inj hw0]
        · rename_i c hg
          rw [hg]
          simp only
          split at hw0
          · exact absurd hw0 nofun
          · rename_i n hn
            refine ⟨n, hn, ?_⟩
            rw [← Out.ok.inj hw0]
            change (GoldenMap.set _ MESH_DEVICE _).lookup 0 = _
            rw [golden_lookup_set, if_neg (by decide)]
            rfl

/-- Entries of the example. -/
def goodEntry (x y : Int) : Json :=
  .obj [num "packet_size" 64, num "num_packets" 2, num "src_x" x, num "src_y" y, num "dst_x" 3, num "dst_y" 4,
    txt "noc_type" "NOC_0"]

/-- A file with three phases; the second has an entry without NoC. -/
def sampleFile : Json :=
  .obj [("golden_result", .obj [num "cycles" 5000]),
    ("phases", .arr [.obj [("transfers", .arr [goodEntry 1 1, goodEntry 1 2])],
      .obj [("transfers", .arr [.obj [num "packet_size" 64, num "num_packets" 2, num "src_x" 1, num "src_y" 1,
        num "dst_x" 3, num "dst_y" 4], goodEntry 1 5])], .obj [("transfers", .arr [])]])]

/-- Sources of the loaded transfers, phase by phase. -/
def sources (r : Out (Option Workload)) : Option (List (List (Coord × Int))) :=
  match r with
  | .ok (some wl) => some (wl.phases.map fun p => p.transfers.map fun t => (t.src, t.id))
  | _ => none

example : sources (loadJSONWorkload .exact true "w.json" (.doc sampleFile)) =
    some [[(⟨0, 1, 1⟩, 0), (⟨0, 2, 1⟩, 1)], [(⟨0, 5, 1⟩, 2)], []] := by
  decide +kernel

/-! ### C61: coordinates -/

/-- C61 (missing: numbers beyond 16 bits).  If the chip and the coordinates of an entry fit 16 bits, the source
and a unicast destination are those written in the file. -/
theorem C61_partial {fp : FP} {t : Json} {x : Transfer} (h : loadTransfer fp t = .ok (some x))
    (hfit : ∀ k ∈ ["device_id", "src_x", "src_y", "dst_x", "dst_y"], ∀ n, t.int? k = some n → -2^15 ≤ n ∧ n < 2^15) :
    x.src = ⟨t.intD "device_id" 0, t.intD "src_y" 0, t.intD "src_x" 0⟩ ∧
    ((t.intD "dst_x" (-1) ≠ -1 ∨ t.intD "dst_y" (-1) ≠ -1) →
      x.dst = .unicast ⟨t.intD "device_id" 0, t.intD "dst_y" (-1), t.intD "dst_x" (-1)⟩) := by
  rcases loadTransfer_ok h with ⟨_, y, hy, hc⟩ | ⟨_, hn⟩
  swap
  · exact absurd hn nofun
  rw [← Option.some.inj hy] at hc
  have fit : ∀ k ∈ ["device_id", "src_x", "src_y", "dst_x", "dst_y"], ∀ d : Int, -2^15 ≤ d → d < 2^15 →
      (t.intD k d).bmod 65536 = t.intD k d := by
    intro k hk d h1 h2
    have : -2^15 ≤ t.intD k d ∧ t.intD k d < 2^15 := by
      unfold Json.intD
      cases hv : t.int? k with
      | none => exact ⟨h1, h2⟩
      | some n => exact hfit k hk n hv
    exact Int.bmod_eq_of_le (by omega) (by omega)
  have f1 := fit "device_id" (by simp) 0 (by norm_num) (by norm_num)
  have f2 := fit "src_x" (by simp) 0 (by norm_num) (by norm_num)
  have f3 := fit "src_y" (by simp) 0 (by norm_num) (by norm_num)
  have f4 := fit "dst_x" (by simp) (-1) (by norm_num) (by norm_num)
  have f5 := fit "dst_y" (by simp) (-1) (by norm_num) (by norm_num)
  unfold File.content File.entry at hc
  simp only [File.Entry.mk.injEq] at hc
  obtain ⟨_, _, hs, hd, _⟩ := hc
  constructor
  · rw [hs]
    unfold Trace.coord
    rw [f1, f2, f3]
  · intro hu
    rw [hd, if_pos (show File.Unicast t from hu)]
    unfold Trace.coord
    rw [f1, f4, f5]

/-- A file with one transfer from column 65537. -/
def farFile : Json := .obj [("phases", .arr [.obj [("transfers", .arr [goodEntry 65537 2])]])]

/-- C61 does not hold for larger numbers: a transfer from column 65537 is loaded as one from column 1 and passes
validation. -/
theorem C61_violated :
    sources (loadJSONWorkload .exact true "w.json" (.doc farFile)) = some [[(⟨0, 2, 1⟩, 0)]] ∧
    (∀ wl, loadJSONWorkload .exact true "w.json" (.doc farFile) = .ok (some wl) →
      wl.validate (wormhole .exact false 1) = .ok true) := by
  constructor
  · decide +kernel
  · intro wl h
    have : (loadJSONWorkload .exact true "w.json" (.doc farFile) >>= fun r =>
        match r with
        | some wl => wl.validate (wormhole .exact false 1)
        | none => .ok false) = .ok true := by decide +kernel
    rw [h] at this
    exact this

/-! ### C71: failures are reported by an empty result -/

/-- C71 (missing: documents that are not lists).  For a list of events the caller gets a workload or an empty
result and never an exception, unless behaviour is undefined; for a file that loads, a workload. -/
theorem C71_partial (fp : FP) (answer : Bool) (path device : String) (isTrace : Bool) (evs : List Json) :
    (∃ r, createWorkload fp answer path device isTrace (.doc (.arr evs)) = .ok r) ∨
      createWorkload fp answer path device isTrace (.doc (.arr evs)) = .ub := by
  have ht := convertTrace_tame fp device path evs
  have h1 : createWorkload fp answer path device isTrace (.doc (.arr evs)) =
      catchNpeNone (convertTrace fp device path (.doc (.arr evs))) := by
    unfold createWorkload
    cases isTrace
    · have hl : loadJSONWorkload fp answer path (.doc (.arr evs)) = .ok none := by
        unfold loadJSONWorkload
        simp only
        split <;> rfl
      rw [hl]; rfl
    · rfl
  rw [h1]
  cases h : convertTrace fp device path (.doc (.arr evs)) with
  | ok r => exact Or.inl ⟨r, rfl⟩
  | exc e => exact Or.inl ⟨none, rfl⟩
  | ub => exact Or.inr rfl
  | std e => rw [h] at ht; exact absurd ht id
  | exit => rw [h] at ht; exact absurd ht id
  | diverge => rw [h] at ht; exact absurd ht id

/-- C71.  No exception of the estimator itself reaches the caller. -/
theorem C71_own (fp : FP) (answer : Bool) (path device : String) (isTrace : Bool) (f : InputFile) (e : ErrCode) :
    createWorkload fp answer path device isTrace f ≠ .exc e := by
  unfold createWorkload
  intro h
  unfold catchNpeNone at h
  split at h
  · exact absurd h nofun
  · rename_i hne
    exact hne e h

/-- C71.  Reading a workload file ends normally or with an exception of the estimator itself, whatever the file
holds: exceptions of the JSON library and of the standard library are caught, and behaviour is defined. -/
theorem C71_workload (fp : FP) (answer : Bool) (path : String) (f : InputFile) :
    (∃ r, loadJSONWorkload fp answer path f = .ok r) ∨ ∃ e, loadJSONWorkload fp answer path f = .exc e := by
  cases f with
  | missing => exact Or.inl ⟨none, rfl⟩
  | unparsable => exact Or.inl ⟨none, rfl⟩
  | doc j =>
    unfold loadJSONWorkload
    simp only
    split
    · exact Or.inl ⟨none, rfl⟩
    · have h := loadDocument_clean fp j
      cases hl : loadDocument fp j with
      | ok r => exact Or.inl ⟨_, rfl⟩
      | exc e => exact Or.inr ⟨e, rfl⟩
      | std e => exact Or.inl ⟨_, rfl⟩
      | ub => rw [hl] at h; exact absurd h id
      | exit => rw [hl] at h; exact absurd h id
      | diverge => rw [hl] at h; exact absurd h id

/-- A phase without transfers makes the JSON library throw; the caller gets an empty result. -/
example : loadDocument .exact (.obj [("phases", .arr [.obj []])]) = .std .simdjson ∧
    loadJSONWorkload .exact true "w.json" (.doc (.obj [("phases", .arr [.obj []])])) = .ok none := ⟨rfl, rfl⟩

/-- C71.  The only exception that reaches the caller is the one of the JSON library for a document that is not a
list of events, and the only undefined behaviour is that of lists of events. -/
theorem C71_only (fp : FP) (answer : Bool) (path device : String) (isTrace : Bool) (f : InputFile) :
    (∃ r, createWorkload fp answer path device isTrace f = .ok r) ∨
    (createWorkload fp answer path device isTrace f = .ub ∧ ∃ evs, f = .doc (.arr evs)) ∨
    (createWorkload fp answer path device isTrace f = .std .simdjson ∧ ∃ j, f = .doc j ∧ ∀ evs, j ≠ .arr evs) := by
  by_cases hf : ∃ evs, f = .doc (.arr evs)
  · obtain ⟨evs, rfl⟩ := hf
    rcases C71_partial fp answer path device isTrace evs with h | h
    · exact Or.inl h
    · exact Or.inr (Or.inl ⟨h, evs, rfl⟩)
  have ht : (∃ r, convertTrace fp device path f = .ok r) ∨ (∃ e, convertTrace fp device path f = .exc e) ∨
      (convertTrace fp device path f = .std .simdjson ∧ ∃ j, f = .doc j ∧ ∀ evs, j ≠ .arr evs) := by
    have : (∃ d, createDeviceModel fp device = .ok d) ∨ ∃ e, createDeviceModel fp device = .exc e := by
      unfold createDeviceModel
      repeat' split
      all_goals first | exact Or.inl ⟨_, rfl⟩ | exact Or.inr ⟨_, rfl⟩
    unfold convertTrace
    rcases this with ⟨d, hd⟩ | ⟨e, he⟩
    · rw [hd]
      cases f with
      | missing => exact Or.inl ⟨_, rfl⟩
      | unparsable => exact Or.inl ⟨_, rfl⟩
      | doc j =>
        have hj : ∀ evs, j ≠ .arr evs := fun evs h => hf ⟨evs, by rw [h]⟩
        refine Or.inr (Or.inr ⟨?_, j, rfl, hj⟩)
        cases j with
        | arr l => exact absurd rfl (hj l)
        | _ => rfl
    · exact Or.inr (Or.inl ⟨e, by rw [he]; rfl⟩)
  have hc : (∃ r, catchNpeNone (convertTrace fp device path f) = .ok r) ∨
      (catchNpeNone (convertTrace fp device path f) = .std .simdjson ∧ ∃ j, f = .doc j ∧ ∀ evs, j ≠ .arr evs) := by
    rcases ht with ⟨r, h⟩ | ⟨e, h⟩ | ⟨h, hj⟩
    · rw [h]; exact Or.inl ⟨r, rfl⟩
    · rw [h]; exact Or.inl ⟨none, rfl⟩
    · rw [h]; exact Or.inr ⟨rfl, hj⟩
  have : (∃ r, createWorkload fp answer path device isTrace f = .ok r) ∨
      (createWorkload fp answer path device isTrace f = .std .simdjson ∧ ∃ j, f = .doc j ∧ ∀ evs, j ≠ .arr evs) := by
    unfold createWorkload
    cases isTrace
    · rcases C71_workload fp answer path f with ⟨r, h⟩ | ⟨e, h⟩
      · rw [h]
        cases r with
        | none => exact hc
        | some wl => exact Or.inl ⟨some wl, rfl⟩
      · rw [h]; exact Or.inl ⟨none, rfl⟩
    · exact hc
  rcases this with h | h
  · exact Or.inl h
  · exact Or.inr (Or.inr h)

/-- C71.  A missing or unreadable file gives an empty result. -/
theorem C71_missing (fp : FP) (answer : Bool) (path device : String) (isTrace : Bool) (f : InputFile)
    (hf : f = .missing ∨ f = .unparsable) : createWorkload fp answer path device isTrace f = .ok none := by
  have hd : ∀ f, (f = .missing ∨ f = .unparsable) → (convertTrace fp device path f = .ok none ∨
      ∃ e, convertTrace fp device path f = .exc e) := by
    intro f hf
    have : (∃ d, createDeviceModel fp device = .ok d) ∨ ∃ e, createDeviceModel fp device = .exc e := by
      unfold createDeviceModel
      repeat' split
      all_goals first | exact Or.inl ⟨_, rfl⟩ | exact Or.inr ⟨_, rfl⟩
    unfold convertTrace
    rcases this with ⟨d, hd⟩ | ⟨e, he⟩
    · left; rw [hd]; rcases hf with rfl | rfl <;> rfl
    · right; rw [he]; exact ⟨e, rfl⟩
  have hl : loadJSONWorkload fp answer path f = .ok none := by rcases hf with rfl | rfl <;> rfl
  unfold createWorkload
  rw [hl]
  cases isTrace
  · change catchNpeNone (convertTrace fp device path f) = _
    rcases hd f hf with h | ⟨e, h⟩ <;> rw [h] <;> rfl
  · change catchNpeNone (convertTrace fp device path f) = _
    rcases hd f hf with h | ⟨e, h⟩ <;> rw [h] <;> rfl

/-- C71 is violated by every workload file without a list of phases, and by every such file that is read as a
trace: the file is read as a trace as a last resort, and the exception of the JSON library (it is not a list)
reaches the caller. -/
theorem C71_violated (fp : FP) (answer : Bool) (path device : String) (isTrace : Bool) (l : List (String × Json))
    {dev : Device} (hdev : createDeviceModel fp device = .ok dev)
    (hp : File.list? (.obj l) "phases" = none) (hg : (Json.field "golden_result" (.obj l)) = none) :
    createWorkload fp answer path device isTrace (.doc (.obj l)) = .std .simdjson := by
  have hc : convertTrace fp device path (.doc (.obj l)) = .std .simdjson := by
    unfold convertTrace
    rw [hdev]
    rfl
  have hl : loadJSONWorkload fp answer path (.doc (.obj l)) = .ok none := by
    unfold loadJSONWorkload
    simp only
    split
    · rfl
    · unfold loadDocument loadGolden
      simp only
      have hp' : ((Json.obj l).field "phases").bind Json.asArr = none := hp
      rw [hg, hp']
      rfl
  unfold createWorkload
  rw [hl]
  cases isTrace
  · change catchNpeNone (convertTrace fp device path (.doc (.obj l))) = _
    rw [hc]; rfl
  · change catchNpeNone (convertTrace fp device path (.doc (.obj l))) = _
    rw [hc]; rfl

example : createWorkload .exact true "w.json" "N150" false (.doc (.obj [txt "name" "empty"])) = .std .simdjson :=
  C71_violated _ _ _ _ _ _ (dev := wormhole .exact false 1) rfl rfl rfl

/-- A misspelt device with a trace: an empty result. -/
example : createWorkload .exact true "t.json" "N151" true (.doc (.arr stateful)) = .ok none := rfl

end NPE.Props
