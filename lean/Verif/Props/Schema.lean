import Verif.Proofs.Numeral
import Verif.Proofs.Summary
import Verif.Props.Document
import Verif.Spec.Schema

/-
Property C132: the published formats of the timeline files.
-/

namespace NPE.Props
open Spec Spec.Schema Out

/-! ### C132: the published formats -/

theorem fits_list {α : Type} {s : Schema} {f : α → Json} {l : List α} (h : ∀ x ∈ l, s.fits (f x) = true) :
    (Schema.list s).fits (.arr (l.map f)) = true := by
  show (l.map f).all s.fits = true
  rw [List.all_map, List.all_eq_true]
  exact h

theorem fits_coord (c : Coord) : place.fits c.json = true := rfl

theorem fits_segment (s : Segment) : (segmentShape .written).fits s.json = true := by
  have h1 := fits_list (l := s.dst) fun c _ => fits_coord c
  have h2 : (Schema.list (tuple [.int, .int, .int, .name Names.written.links])).fits (.arr (s.links.map hopJson)) = true :=
    fits_list fun h _ => by
      obtain ⟨c, k⟩ := h
      cases k with
      | entry n => cases n <;> rfl
      | exit n => cases n <;> rfl
      | link ty => cases ty <;> rfl
  have h3 : (Schema.name [Names.written.noc0, Names.written.noc1]).fits (.str s.noc.name) = true := by
    cases s.noc <;> rfl
  show (true && (true && ((Schema.list place).fits (.arr (s.dst.map Coord.json)) &&
    ((Schema.name [Names.written.noc0, Names.written.noc1]).fits (.str s.noc.name) && (true && (true && (true &&
    ((Schema.list (tuple [.int, .int, .int, .name Names.written.links])).fits (.arr (s.links.map hopJson)) && true)))))))) = true
  rw [h1, h2, h3]
  rfl

theorem fits_transfer (t : LogicalTransfer) : (transferShape .written).fits t.json = true := by
  have h1 := fits_list (l := t.dst) fun c _ => fits_coord c
  have h2 := fits_list (l := t.route) fun s _ => fits_segment s
  show (true && (true && (true && (true && ((Schema.list place).fits (.arr (t.dst.map Coord.json)) && (true && (true &&
    ((Schema.list (segmentShape .written)).fits (.arr (t.route.map Segment.json)) && true)))))))) = true
  rw [h1, h2]
  rfl

theorem hop_fits (k : HopKind) : (Schema.name Names.written.links).fits (.str k.name) = true := by
  cases k with
  | entry n => cases n <;> rfl
  | exit n => cases n <;> rfl
  | link ty => cases ty <;> rfl

theorem fits_timestep (r : TimestepStats) (e : TimestepEntry) :
    (timestepShape .written).fits (timestepJson r e) = true := by
  have h1 : (Schema.list .int).fits (.arr (e.active.map Json.int)) = true := fits_list fun _ _ => rfl
  have h2 : (Schema.list (tuple [.int, .int, .int, .name Names.written.links, .num])).fits
      (.arr (e.linkDemand.map demandJson)) = true := fits_list fun d _ => by
    show (true && (true && (true && ((Schema.name Names.written.links).fits (.str d.2.1.name) && true)))) = true
    rw [hop_fits]
    rfl
  show (true && (true && ((Schema.list .int).fits (.arr (e.active.map Json.int)) && (true && (true &&
    ((Schema.list (tuple [.int, .int, .int, .name Names.written.links, .num])).fits
      (.arr (e.linkDemand.map demandJson)) && true)))))) = true
  rw [h1, h2]
  rfl

/-- The figures of a summary that are written into a timeline fit `f`. -/
def FiguresFit (f : Schema) (s : Summary) : Prop :=
  f.fits s.dramUtil.json = true ∧ f.fits s.avgLinkUtil.json = true ∧ f.fits s.avgLinkDemand.json = true ∧
  f.fits s.avgNoc0Demand.json = true ∧ f.fits s.avgNoc0Util.json = true ∧
  f.fits s.avgNoc1Demand.json = true ∧ f.fits s.avgNoc1Util.json = true

theorem dbl_orNull (x : Dbl) : (Schema.orNull .num).fits x.json = true := by cases x <;> rfl

theorem figures_written (s : Summary) : FiguresFit (.orNull .num) s :=
  ⟨dbl_orNull _, dbl_orNull _, dbl_orNull _, dbl_orNull _, dbl_orNull _, dbl_orNull _, dbl_orNull _⟩

/-- The fields of `common_info`, followed by others. -/
theorem fits_common {f : Schema} {cfg : Config} {dev : Device} {s : Summary} {l : List (String × Json)}
    (hl : l = [] ∨ ∃ j, l = [("split_info", j)])
    (hc : cfg.congestionModel = "fast" ∨ cfg.congestionModel = "none") {fields : List (String × Json)}
    (h : commonInfo cfg dev s = .obj fields) :
    (commonShape { Names.written with figure := f }).fits (.obj (fields ++ l)) = true ↔ FiguresFit f s := by
  have hcm : (Schema.name ["fast", "none"]).fits (.str cfg.congestionModel) = true := by
    rcases hc with h | h <;> rw [h] <;> rfl
  have ha : (Schema.name ["wormhole_b0", "blackhole"]).fits
      (.str (if dev.arch = .wormholeB0 then "wormhole_b0" else "blackhole")) = true := by
    split <;> rfl
  have key : ((true && (true && ((Schema.name ["fast", "none"]).fits (.str cfg.congestionModel) && (true &&
    ((Schema.name ["wormhole_b0", "blackhole"]).fits
      (.str (if dev.arch = .wormholeB0 then "wormhole_b0" else "blackhole")) &&
    (f.fits s.dramUtil.json && (f.fits s.avgLinkUtil.json && (f.fits s.avgLinkDemand.json && (true &&
    (((f.fits s.avgNoc0Demand.json && (f.fits s.avgNoc0Util.json && (true && true))) &&
     ((f.fits s.avgNoc1Demand.json && (f.fits s.avgNoc1Util.json && (true && true))) && true)) && true))))))))))) = true ↔ FiguresFit f s := by
    rw [hcm, ha]
    unfold FiguresFit
    simp only [Bool.and_eq_true, Bool.true_and, Bool.and_true]
    tauto
  have e := (Json.obj.inj h).symm
  subst e
  rcases hl with rfl | ⟨j, rfl⟩ <;> exact key

theorem fits_chips {ew : Int} {nodes l : List (String × Json)} (h : chipPlaces ew nodes = .ok (some l)) :
    (Schema.dict (tuple [.int, .int, .int, .int])).fits (.obj l) = true := by
  induction nodes generalizing l with
  | nil =>
    have := Option.some.inj (Out.ok.inj h)
    subst this
    rfl
  | cons e nodes ih =>
    unfold chipPlaces at h
    split at h
    · exact absurd (by assumption : _ :: _ = []) (by simp)
    · rename_i k a b l' heq
      split at h
      · rw [bind_eq_ok] at h
        obtain ⟨p, _, h⟩ := h
        rw [bind_eq_ok] at h
        obtain ⟨r, hr, h⟩ := h
        cases r with
        | none => exact absurd (Out.ok.inj h) (by simp)
        | some r =>
          have := Option.some.inj (Out.ok.inj h)
          subst this
          have e := (List.cons.inj heq).2
          subst e
          show (true && (Schema.dict (tuple [.int, .int, .int, .int])).fits (.obj r)) = true
          rw [ih hr]
          rfl
      · exact absurd (Out.ok.inj h) (by simp)
    · exact absurd (Out.ok.inj h) (by simp)

theorem fits_chipsSection {dev : Device} {topology : InputFile} {l : List (String × Json)}
    (h : chipsSection dev topology = .ok (some l)) :
    (Schema.dict (tuple [.int, .int, .int, .int])).fits (.obj l) = true := by
  unfold chipsSection at h
  split at h
  · split at h
    · exact absurd (Out.ok.inj h) (by simp)
    · exact absurd (Out.ok.inj h) (by simp)
    · split at h
      · rw [bind_eq_ok] at h
        obtain ⟨_, _, h⟩ := h
        rw [bind_eq_ok] at h
        obtain ⟨_, _, h⟩ := h
        exact fits_chips h
      · have := Option.some.inj (Out.ok.inj h)
        subst this
        rfl
  · have := Option.some.inj (Out.ok.inj h)
    subst this
    rfl

/-- What a document of the current format consists of. -/
theorem documentV1_parts {fp : FP} {cfg : Config} {dev : Device} {ord : List (Int × List Int) → List (Int × List Int)}
    {topology : InputFile} {d : RunData} {region : Option Region} {j : Json}
    (h : documentV1 fp cfg dev ord topology d region = .ok j) :
    (chipsSection dev topology = .ok none ∧ j = .null) ∨
    ∃ (chips : List (String × Json)) (ts : List LogicalTransfer) (zones : List Json)
        (es : List (TimestepStats × TimestepEntry)), chipsSection dev topology = .ok (some chips) ∧ j = .obj [
      ("common_info", commonInfo cfg dev d.summary), ("chips", .obj chips),
      ("noc_transfers", .arr (ts.map LogicalTransfer.json)), ("zones", .arr zones),
      ("timestep_data", .arr (es.map fun e : TimestepStats × TimestepEntry => timestepJson e.1 e.2))] := by
  unfold documentV1 at h
  rw [bind_eq_ok] at h
  obtain ⟨c, hc, h⟩ := h
  cases c with
  | none => exact Or.inl ⟨hc, (Out.ok.inj h).symm⟩
  | some chips =>
    simp only at h
    rw [bind_eq_ok] at h
    obtain ⟨tl, _, h⟩ := h
    rw [bind_eq_ok] at h
    obtain ⟨zones, _, h⟩ := h
    refine Or.inr ⟨chips, tl.transfers, zones, (d.stats.steps.filter (listedStep region)).zip tl.timesteps, hc, ?_⟩
    rw [← Out.ok.inj h, List.zip, List.map_zipWith]

theorem fits_parts {f : Schema} {cfg : Config} {dev : Device} {topology : InputFile} {s : Summary}
    {chips : List (String × Json)} {ts : List LogicalTransfer} {zones : List Json}
    {es : List (TimestepStats × TimestepEntry)} {l : List (String × Json)}
    (hl : l = [] ∨ ∃ j, l = [("split_info", j)])
    (hc : cfg.congestionModel = "fast" ∨ cfg.congestionModel = "none")
    (hchips : chipsSection dev topology = .ok (some chips)) {fields : List (String × Json)}
    (h : commonInfo cfg dev s = .obj fields) :
    (timelineShape { Names.written with figure := f }).fits (.obj [
      ("common_info", .obj (fields ++ l)), ("chips", .obj chips),
      ("noc_transfers", .arr (ts.map LogicalTransfer.json)), ("zones", .arr zones),
      ("timestep_data", .arr (es.map fun e => timestepJson e.1 e.2))]) = true ↔ FiguresFit f s := by
  have h2 := fits_chipsSection hchips
  have h3 := fits_list (l := ts) fun t _ => fits_transfer t
  have h4 := fits_list (l := es) (f := fun e => timestepJson e.1 e.2) fun e _ => fits_timestep e.1 e.2
  show ((commonShape { Names.written with figure := f }).fits (.obj (fields ++ l)) &&
    ((Schema.dict (tuple [.int, .int, .int, .int])).fits (.obj chips) &&
    ((Schema.list (transferShape .written)).fits (.arr (ts.map LogicalTransfer.json)) &&
    ((Schema.list (timestepShape .written)).fits (.arr (es.map fun e => timestepJson e.1 e.2)) && true)))) = true ↔ _
  rw [h2, h3, h4, Bool.and_true, Bool.and_true, Bool.and_true, Bool.and_true, fits_common hl hc h]

/-- A value that fits a record has all its keys, with fitting values. -/
theorem fits_key {fs : List (String × Schema)} {j : Json} (h : (Schema.record fs).fits j = true) {k : String} {s : Schema}
    (hk : (k, s) ∈ fs) : ∃ v, j.field k = some v ∧ s.fits v = true := by
  induction fs with
  | nil => exact absurd hk (by simp)
  | cons e fs ih =>
    cases j with
    | obj l =>
      have h' : ((match l.lookup e.1 with
        | some v => e.2.fits v
        | none => false) && (Schema.record fs).fits (.obj l)) = true := h
      rw [Bool.and_eq_true] at h'
      rcases List.mem_cons.mp hk with rfl | hk
      · obtain ⟨h1, _⟩ := h'
        split at h1
        · rename_i v hv
          exact ⟨v, hv, h1⟩
        · exact absurd h1 Bool.false_ne_true
      · exact ih h'.2 hk
    | _ => exact absurd h Bool.false_ne_true

/-- What the files of a run contain. -/
theorem emit_parts {fp : FP} {cfg : Config} {dev : Device} {ord : List (Int × List Int) → List (Int × List Int)}
    {tc : TimelineConfig} {wl : Workload} {ts : List TState} {rep : Report} {files : List (List Char × Json)}
    (h : emitFiles fp cfg dev ord tc wl ts rep = .ok files) (hl : tc.legacy = false) {f : List Char × Json}
    (hf : f ∈ files) :
    ∃ r d, rep.lookup MESH_DEVICE = some r ∧ d.summary = r.summary ∧ d.stats = r.stats ∧
      ∃ region j, documentV1 fp cfg dev ord tc.topology d region = .ok j ∧
        (f.2 = j ∨ ∃ i n r, f.2 = addSplitInfo i n r j) := by
  obtain ⟨r, rs, j, l, hr, hj, _, hs, rfl⟩ := emitFiles_v1 h hl
  refine ⟨r, ⟨wl, ts, r.stats, r.summary⟩, hr, rfl, rfl, ?_⟩
  rcases List.mem_cons.mp hf with rfl | hf
  · exact ⟨none, j, hj, Or.inl rfl⟩
  · obtain ⟨k, hk, he⟩ := List.mem_iff_getElem.mp hf
    have hk' : k < ((List.range rs.length).zip rs).length := by rw [hs.length_eq]; exact hk
    obtain ⟨j', hj', e⟩ := (List.forall₂_iff_get.mp hs).2 k hk' hk
    have e' : l[k] = _ := e
    rw [he] at e'
    exact ⟨_, j', hj', Or.inr ⟨_, _, _, congrArg Prod.snd e'⟩⟩

theorem runSim_emits {fp : FP} {ho : HashOrder} {ord : List (Int × List Int) → List (Int × List Int)} {api : Api}
    {tc : TimelineConfig} {congestion : Bool} {wl : Workload} {r : Result} {files : List (List Char × Json)}
    (h : api.runSimFiles fp ho ord tc congestion wl = .ok (r, files)) :
    files = [] ∨ ∃ s st rep, r = .inl rep ∧ Stats.report api.dev wl st = .ok rep ∧
      runSingle fp api.dev ho api.cfg.cyclesPerTimestep congestion wl = .ok (.inl (s, st)) ∧
      emitFiles fp api.cfg api.dev ord tc wl s.ts rep = .ok files := by
  unfold Api.runSimFiles at h
  rw [bind_eq_ok] at h
  obtain ⟨x, hx, h⟩ := h
  match x, hx, h with
  | .inl (s, st), hx, h =>
    rw [bind_eq_ok] at h
    obtain ⟨rep, hrep, h⟩ := h
    split at h
    · rw [bind_eq_ok] at h
      obtain ⟨f, hf, h⟩ := h
      have e := Out.ok.inj h
      have e2 : f = files := congrArg Prod.snd e
      exact Or.inr ⟨s, st, rep, (congrArg Prod.fst e).symm, hrep, hx, e2 ▸ hf⟩
    · exact Or.inl (congrArg Prod.snd (Out.ok.inj h)).symm
  | .inr e, _, h => exact Or.inl (congrArg Prod.snd (Out.ok.inj h)).symm

/-- The files of an estimate are those of one simulation, whose statistics differ from those of the estimate at most
in the estimate without congestion. -/
theorem runNPE_emits {fp : FP} {ho : HashOrder} {ord : List (Int × List Int) → List (Int × List Int)} {api : Api}
    {tc : TimelineConfig} {wl : Workload} {r : Result} {files : List (List Char × Json)}
    (h : api.runNPEFiles fp ho ord tc wl = .ok (r, files)) :
    files = [] ∨ ∃ wl' congestion s st rep, (r = .inl rep ∨ r = .inl (setCongFree rep)) ∧
      Stats.report api.dev wl' st = .ok rep ∧
      runSingle fp api.dev ho api.cfg.cyclesPerTimestep congestion wl' = .ok (.inl (s, st)) ∧
      emitFiles fp api.cfg api.dev ord tc wl' s.ts rep = .ok files := by
  unfold Api.runNPEFiles at h
  rw [bind_eq_ok] at h
  obtain ⟨wl', _, h⟩ := h
  rw [bind_eq_ok] at h
  obtain ⟨v, _, h⟩ := h
  cases v with
  | false => exact Or.inl (congrArg Prod.snd (Out.ok.inj h)).symm
  | true =>
    simp only [if_true] at h
    cases hp : api.runPerfFiles fp ho ord tc wl' with
    | exc e =>
      rw [hp] at h
      exact Or.inl (congrArg Prod.snd (Out.ok.inj h)).symm
    | ok x =>
      rw [hp] at h
      have e := Out.ok.inj h
      subst e
      unfold Api.runPerfFiles at hp
      simp only at hp
      rw [bind_eq_ok] at hp
      obtain ⟨x, hx, hp⟩ := hp
      rcases runSim_emits (r := x.1) (files := x.2) hx with hn | ⟨s, st, rep, h1, h2, h3, h4⟩
      · left
        rw [← hn]
        split at hp
        · split at hp
          · exact (congrArg Prod.snd (Out.ok.inj hp)).symm
          · rw [bind_eq_ok] at hp
            obtain ⟨y, _, hp⟩ := hp
            split at hp <;> exact (congrArg Prod.snd (Out.ok.inj hp)).symm
        · exact (congrArg Prod.snd (Out.ok.inj hp)).symm
      · right
        suffices hh : (r = .inl rep ∨ r = .inl (setCongFree rep)) ∧ files = x.2 by
          exact ⟨wl', _, s, st, rep, hh.1, h2, h3, hh.2 ▸ h4⟩
        rw [h1] at hp
        split at hp
        · simp only at hp
          rw [bind_eq_ok] at hp
          obtain ⟨y, _, hp⟩ := hp
          split at hp
          · exact ⟨Or.inl (congrArg Prod.fst (Out.ok.inj hp)).symm, (congrArg Prod.snd (Out.ok.inj hp)).symm⟩
          · exact ⟨Or.inr (congrArg Prod.fst (Out.ok.inj hp)).symm, (congrArg Prod.snd (Out.ok.inj hp)).symm⟩
        · have e := Out.ok.inj hp
          exact ⟨Or.inl ((congrArg Prod.fst e).symm.trans h1), (congrArg Prod.snd e).symm⟩
    | _ => rw [hp] at h; exact absurd h nofun

/-- A figure that results from a division exists if and only if it is not by zero. -/
theorem fits_fdiv (a b : ℚ) : (Schema.num.fits (fdiv a b).json = true) ↔ b ≠ 0 := by
  unfold fdiv
  by_cases h : b = 0
  · rw [if_pos h]
    have : Schema.num.fits (if a = 0 then Dbl.nan else if 0 < a then .inf else .ninf).json = false := by
      split_ifs <;> rfl
    rw [this]
    simp [h]
  · rw [if_neg h]
    exact ⟨fun _ => h, fun _ => rfl⟩

theorem fits_scale (k : ℚ) (x : Dbl) : Schema.num.fits (x.scale k).json = Schema.num.fits x.json := by
  cases x <;> rfl

/-- All figures of a run exist if and only if the golden cycles are not zero and there are timesteps. -/
theorem figures_numbers {dev : Device} {wl : Workload} {d : Int} {s : DevStats} {m : Summary} (hbw : dev.dramBw ≠ 0)
    (h : computeSummary dev wl d s = .ok m) : FiguresFit .num m ↔ s.golden ≠ 0 ∧ s.steps ≠ [] := by
  unfold computeSummary at h
  simp only [bind_eq_ok] at h
  obtain ⟨bytes, _, eth, _, h⟩ := h
  have e := Out.ok.inj h
  subst e
  unfold FiguresFit
  simp only [avgOver, fits_scale, fits_fdiv]
  have hg : ((s.golden : ℚ) * dev.dramBw ≠ 0) ↔ s.golden ≠ 0 := by
    simp [hbw]
  have hs : ((s.steps.length : ℚ) ≠ 0) ↔ s.steps ≠ [] := by
    simp
  rw [hg, hs]
  tauto

/-- What an estimate writes into a file of the current format. -/
theorem file_parts {fp : FP} {cfg : Config} {dev : Device} {ord : List (Int × List Int) → List (Int × List Int)}
    {tc : TimelineConfig} {wl : Workload} {ts : List TState} {rep : Report} {files : List (List Char × Json)}
    (h : emitFiles fp cfg dev ord tc wl ts rep = .ok files) (hl : tc.legacy = false) {g : List Char × Json}
    (hg : g ∈ files) :
    ∃ r, rep.lookup MESH_DEVICE = some r ∧
      ((chipsSection dev tc.topology = .ok none ∧ (g.2 = .null ∨ ∃ j, g.2 = .obj [("common_info", .obj [("split_info", j)])])) ∨
      ∃ (chips : List (String × Json)) (ts : List LogicalTransfer) (zones : List Json)
        (es : List (TimestepStats × TimestepEntry)) (fields l : List (String × Json)),
        chipsSection dev tc.topology = .ok (some chips) ∧ commonInfo cfg dev r.summary = .obj fields ∧
        (l = [] ∨ ∃ j, l = [("split_info", j)]) ∧ g.2 = .obj [
          ("common_info", .obj (fields ++ l)), ("chips", .obj chips),
          ("noc_transfers", .arr (ts.map LogicalTransfer.json)), ("zones", .arr zones),
          ("timestep_data", .arr (es.map fun e => timestepJson e.1 e.2))]) := by
  obtain ⟨r, d, hr, hd, _, region, j, hj, hs⟩ := emit_parts h hl hg
  refine ⟨r, hr, ?_⟩
  rcases documentV1_parts hj with ⟨hn, rfl⟩ | ⟨chips, ts, zones, es, hc, rfl⟩
  · left
    refine ⟨hn, ?_⟩
    rcases hs with hs | ⟨i, n, r, hs⟩
    · exact Or.inl hs
    · exact Or.inr ⟨_, hs⟩
  · right
    rw [hd] at hs
    rcases hs with hs | ⟨i, n, r', hs⟩
    · exact ⟨chips, ts, zones, es, _, [], hc, rfl, Or.inl rfl, hs⟩
    · exact ⟨chips, ts, zones, es, _, [("split_info", splitInfo i n r')], hc, rfl, Or.inr ⟨_, rfl⟩, hs⟩

/-- C132, as claimed: the files are as published. -/
def C132_claim : Prop := ∀ (fp : FP) (api : Api),
  api.cfg.congestionModel = "fast" ∨ api.cfg.congestionModel = "none" →
  ∀ (ho : HashOrder) (ord : List (Int × List Int) → List (Int × List Int)) (tc : TimelineConfig) (wl : Workload)
    (r : Result) (files : List (List Char × Json)), api.runNPEFiles fp ho ord tc wl = .ok (r, files) →
    ∀ f ∈ files, (if tc.legacy then oldPublished else timelineShape .published).fits f.2 = true

/-- Violated by every file of the current format. -/
theorem C132_violated (fp : FP) (ho : HashOrder) (ord : List (Int × List Int) → List (Int × List Int)) (api : Api)
    (tc : TimelineConfig) (hl : tc.legacy = false) (wl : Workload) (r : Result) (files : List (List Char × Json))
    (h : api.runNPEFiles fp ho ord tc wl = .ok (r, files)) :
    ∀ f ∈ files, (timelineShape .published).fits f.2 = false := by
  intro f hf
  rcases runNPE_emits h with rfl | ⟨wl', c, s, st, rep, _, _, _, he⟩
  · exact absurd hf (by simp)
  rw [← Bool.not_eq_true]
  intro hfit
  obtain ⟨v, hv, hfit⟩ := fits_key hfit (List.mem_cons_self)
  obtain ⟨w, hw, hfit⟩ := fits_key (k := "noc") hfit (by
    repeat first | exact List.mem_cons_self | apply List.mem_cons_of_mem)
  obtain ⟨u, hu, _⟩ := fits_key (k := "NOC_0") hfit (List.mem_cons_self)
  obtain ⟨r', _, h' | ⟨chips, ts, zones, es, fields, l, _, hfi, hl', e⟩⟩ := file_parts he hl hf
  · rcases h'.2 with e | ⟨j, e⟩
    · rw [e] at hv; exact absurd hv nofun
    · rw [e] at hv
      have := Option.some.inj (show some (Json.obj [("split_info", j)]) = some v from hv)
      subst this
      exact absurd hw nofun
  · rw [e] at hv
    have := Option.some.inj (show some (Json.obj (fields ++ l)) = some v from hv)
    subst this
    have e := (Json.obj.inj hfi).symm
    subst e
    rcases hl' with rfl | ⟨j, rfl⟩ <;>
    · have := Option.some.inj (show some (Json.obj [
        ("NOC0", nocJson r'.summary.avgNoc0Demand.json r'.summary.avgNoc0Util.json (.double r'.summary.maxNoc0Demand)),
        ("NOC1", nocJson r'.summary.avgNoc1Demand.json r'.summary.avgNoc1Util.json (.double r'.summary.maxNoc1Demand))]) =
          some w from hw)
      subst this
      exact absurd hu nofun

theorem setCongFree_lookup (rep : Report) (d : Int) : (setCongFree rep).lookup d = (rep.lookup d).map fun e =>
    { e with stats := { e.stats with estimatedCongFree := e.stats.estimated } } := by
  unfold setCongFree
  induction rep with
  | nil => rfl
  | cons e rep ih =>
    rw [List.map_cons, List.lookup_cons, List.lookup_cons, ih]
    cases d == e.1 <;> rfl

/-- Every estimator has one of the two models. -/
theorem make_congestion {fp : FP} {cfg : Config} {api : Api} (hmake : Api.make fp cfg = .ok api) :
    api.cfg.congestionModel = "fast" ∨ api.cfg.congestionModel = "none" := by
  unfold Api.make at hmake
  rw [bind_eq_ok] at hmake
  obtain ⟨dev, _, hmake⟩ := hmake
  rw [bind_eq_ok] at hmake
  obtain ⟨u, hv, hmake⟩ := hmake
  have e := Out.ok.inj hmake
  subst e
  unfold Config.validate at hv
  split_ifs at hv with h1 h2
  simp only
  tauto

/-- C132.  What holds: unless the document is empty, because the places of the chips are unknown, every file has the
published shape with the names of `Names.written`.  The figures of the run are numbers, not `null`, if and only if the
golden cycles are not zero and there are timesteps.

Missing: that the published names are used, and that no figure is missing. -/
theorem C132_partial (fp : FP) (api : Api)
    (hcm : api.cfg.congestionModel = "fast" ∨ api.cfg.congestionModel = "none") (ho : HashOrder)
    (ord : List (Int × List Int) → List (Int × List Int)) (tc : TimelineConfig) (hl : tc.legacy = false)
    (wl : Workload) (rep : Report) (files : List (List Char × Json))
    (h : api.runNPEFiles fp ho ord tc wl = .ok (.inl rep, files)) (hj : ∀ f, files.head? = some f → f.2 ≠ .null)
    (f : List Char × Json) (hf : f ∈ files) :
    (timelineShape .written).fits f.2 = true ∧
    (api.dev.dramBw ≠ 0 → ∃ m, rep.lookup MESH_DEVICE = some m ∧
      ((timelineShape .numbers).fits f.2 = true ↔ m.stats.golden ≠ 0 ∧ m.stats.steps ≠ [])) := by
  rcases runNPE_emits h with rfl | ⟨wl', c, s, st, rep', hr, hrep, _, he⟩
  · exact absurd hf (by simp)
  have hsome : chipsSection api.dev tc.topology ≠ .ok none := by
    intro hn
    cases files with
    | nil => exact absurd hf (by simp)
    | cons g files =>
      obtain ⟨r, rs, j, l, _, hd, _, _, e⟩ := emitFiles_v1 he hl
      have e := (List.cons.inj e).1
      rcases documentV1_parts hd with ⟨_, rfl⟩ | ⟨_, _, _, _, hc, _⟩
      · exact hj g rfl (by rw [e])
      · rw [hn] at hc; exact absurd (Out.ok.inj hc) (by simp)
  obtain ⟨m, hm, h' | ⟨chips, ts, zones, es, fields, l, hch, hfi, hl', e⟩⟩ := file_parts he hl hf
  · exact absurd h'.1 hsome
  rw [e]
  refine ⟨(fits_parts hl' hcm hch hfi).2 (figures_written _), fun hbw => ?_⟩
  have key := (fits_parts (f := .num) (ts := ts) (zones := zones) (es := es) hl' hcm hch hfi).trans
    (figures_numbers hbw (report_mem hrep (Fabric.mem_of_lookup hm)))
  rcases hr with hr | hr
  · rw [← Sum.inl.inj hr] at hm
    exact ⟨m, hm, key⟩
  · exact ⟨{ m with stats := { m.stats with estimatedCongFree := m.stats.estimated } },
      by rw [Sum.inl.inj hr, setCongFree_lookup, hm]; rfl, key⟩

/-! #### The legacy format -/

theorem fits_link0 (ty : LinkType) : (Schema.name Names.written.links).fits (.str ty.name) = true := by
  cases ty <;> rfl

theorem fits_all {s : Schema} {l : List Json} (h : ∀ x ∈ l, s.fits x = true) : (Schema.list s).fits (.arr l) = true := by
  show l.all s.fits = true
  rw [List.all_eq_true]
  exact h

theorem fits_transferV0 (t : TState) (dst : List Coord) (attrs : List LinkAttr) :
    (oldTransferShape .written (.list (oldLink .written))).fits (transferJsonV0 t dst attrs) = true := by
  have h1 : (Schema.list (tuple [.int, .int])).fits (.arr (dst.map Coord.jsonV0)) = true := fits_list fun _ _ => rfl
  have hl : ∀ (r c : Int) (n : String), (Schema.name Names.written.links).fits (.str n) = true →
      (oldLink .written).fits (.arr [.int r, .int c, .str n]) = true := fun r c n h => by
    show (true && (true && ((Schema.name Names.written.links).fits (.str n) && true))) = true
    rw [h]
    rfl
  have h2 : (Schema.list (oldLink .written)).fits (.arr (
      .arr [.int t.params.src.row, .int t.params.src.col, .str (HopKind.entry t.params.noc).name] ::
      (attrs.map fun a => .arr [.int a.coord.row, .int a.coord.col, .str a.type.name]) ++
      dst.map fun c => .arr [.int c.row, .int c.col, .str (HopKind.exit t.params.noc).name])) = true := by
    refine fits_all fun x hx => ?_
    rw [List.cons_append, List.mem_cons, List.mem_append, List.mem_map, List.mem_map] at hx
    rcases hx with rfl | ⟨a, _, rfl⟩ | ⟨c, _, rfl⟩
    · exact hl _ _ _ (hop_fits _)
    · exact hl _ _ _ (fits_link0 _)
    · exact hl _ _ _ (hop_fits _)
  have h3 : (Schema.name [Names.written.noc0, Names.written.noc1]).fits (.str t.params.noc.name) = true := by
    cases t.params.noc <;> rfl
  show (true && (true && (true && ((Schema.list (tuple [.int, .int])).fits (.arr (dst.map Coord.jsonV0)) &&
    ((Schema.list (oldLink .written)).fits (.arr (
      .arr [.int t.params.src.row, .int t.params.src.col, .str (HopKind.entry t.params.noc).name] ::
      (attrs.map fun a => .arr [.int a.coord.row, .int a.coord.col, .str a.type.name]) ++
      dst.map fun c => .arr [.int c.row, .int c.col, .str (HopKind.exit t.params.noc).name])) &&
    ((Schema.name [Names.written.noc0, Names.written.noc1]).fits (.str t.params.noc.name) &&
      (true && (true && (true && (true && true)))))))))) = true
  rw [h1, h2, h3]
  rfl

theorem fits_timestepV0 {fp : FP} {dev : Device} {r : TimestepStats} {j : Json} (h : timestepV0 fp dev r = .ok j) :
    (oldTimestepShape .written).fits j = true := by
  unfold timestepV0 at h
  rw [bind_eq_ok] at h
  obtain ⟨nius, hn, h⟩ := h
  rw [bind_eq_ok] at h
  obtain ⟨links, hk, h⟩ := h
  rw [← Out.ok.inj h]
  have hl : ∀ (r c : Int) (n : String) (x : ℚ), (Schema.name Names.written.links).fits (.str n) = true →
      (tuple [.int, .int, .name Names.written.links, .num]).fits (.arr [.int r, .int c, .str n, .double x]) = true :=
    fun r c n x h => by
      show (true && (true && ((Schema.name Names.written.links).fits (.str n) && true))) = true
      rw [h]
      rfl
  have h1 : (Schema.list (tuple [.int, .int, .name Names.written.links, .num])).fits (.arr (nius ++ links)) = true := by
    refine fits_all fun x hx => ?_
    rcases List.mem_append.mp hx with hx | hx
    · refine mapM_forall (P := fun x => (tuple [.int, .int, .name Names.written.links, .num]).fits x = true) hn (fun e j he => ?_) x hx
      rw [bind_eq_ok] at he
      obtain ⟨a, _, he⟩ := he
      rw [← Out.ok.inj he]
      exact hl _ _ _ _ (hop_fits _)
    · refine mapM_forall (P := fun x => (tuple [.int, .int, .name Names.written.links, .num]).fits x = true) hk (fun e j he => ?_) x hx
      rw [bind_eq_ok] at he
      obtain ⟨a, _, he⟩ := he
      rw [← Out.ok.inj he]
      exact hl _ _ _ _ (fits_link0 _)
  have h2 : (Schema.list .int).fits (.arr ((sortBy (fun a b => a ≤ b) r.live).map fun (i : Nat) => .int i)) = true :=
    fits_list fun _ _ => rfl
  show (true && (true && ((Schema.list .int).fits
      (.arr ((sortBy (fun a b => a ≤ b) r.live).map fun (i : Nat) => .int i)) &&
    ((Schema.list (tuple [.int, .int, .name Names.written.links, .num])).fits (.arr (nius ++ links)) &&
      (true && (true && true)))))) = true
  rw [h1, h2]
  rfl

/-- What a file of the legacy format consists of. -/
theorem legacy_parts {fp : FP} {cfg : Config} {dev : Device} {ord : List (Int × List Int) → List (Int × List Int)}
    {tc : TimelineConfig} {wl : Workload} {ts : List TState} {rep : Report} {files : List (List Char × Json)}
    (h : emitFiles fp cfg dev ord tc wl ts rep = .ok files) (hl : tc.legacy = true) {g : List Char × Json}
    (hg : g ∈ files) :
    ∃ r transfers steps, rep.lookup MESH_DEVICE = some r ∧ Out.mapM (transferV0 dev) ts = .ok transfers ∧
      Out.mapM (timestepV0 fp dev) r.stats.steps = .ok steps ∧ g.2 = .obj [
        ("common_info", .obj [
          ("device_name", .str cfg.deviceName),
          ("cycles_per_timestep", .int cfg.cyclesPerTimestep),
          ("congestion_model_name", .str cfg.congestionModel),
          ("num_rows", .int dev.rows),
          ("num_cols", .int dev.cols),
          ("dram_bw_util", r.summary.dramUtil.json),
          ("link_util", r.summary.avgLinkUtil.json),
          ("mcast_write_link_util", r.summary.avgMcastUtil.json),
          ("link_demand", r.summary.avgLinkDemand.json),
          ("max_link_demand", .double r.summary.maxLinkDemand)]),
        ("noc_transfers", .arr transfers),
        ("timestep_data", .arr steps)] := by
  obtain ⟨r, j, hr, hj, rfl⟩ := emitFiles_legacy h hl
  unfold documentV0 at hj
  rw [bind_eq_ok] at hj
  obtain ⟨transfers, ht, hj⟩ := hj
  rw [bind_eq_ok] at hj
  obtain ⟨steps, hs, hj⟩ := hj
  rw [List.mem_singleton] at hg
  refine ⟨r, transfers, steps, hr, ht, hs, ?_⟩
  rw [hg]
  exact (Out.ok.inj hj).symm

theorem transferV0_ok {dev : Device} {t : TState} {j : Json} (h : transferV0 dev t = .ok j) :
    ∃ dst attrs, j = transferJsonV0 t dst attrs := by
  unfold transferV0 at h
  rw [bind_eq_ok] at h
  obtain ⟨dst, _, h⟩ := h
  rw [bind_eq_ok] at h
  obtain ⟨attrs, _, h⟩ := h
  exact ⟨dst, attrs, (Out.ok.inj h).symm⟩

/-- C132, legacy format.  What holds: a file has the published shape with the names of `Names.written`, and with one
list of links as the route of a transfer.

Missing: that the published names are used, that a route is a list of lists, and that no figure is missing. -/
theorem C132_legacy_partial (fp : FP) (api : Api)
    (hcm : api.cfg.congestionModel = "fast" ∨ api.cfg.congestionModel = "none") (ho : HashOrder)
    (ord : List (Int × List Int) → List (Int × List Int)) (tc : TimelineConfig) (hl : tc.legacy = true)
    (wl : Workload) (rep : Report) (files : List (List Char × Json))
    (h : api.runNPEFiles fp ho ord tc wl = .ok (.inl rep, files)) (f : List Char × Json) (hf : f ∈ files) :
    (oldWritten .written).fits f.2 = true ∧
    (api.dev.dramBw ≠ 0 → ∃ m, rep.lookup MESH_DEVICE = some m ∧
      ((oldWritten .numbers).fits f.2 = true ↔ m.stats.golden ≠ 0 ∧ m.stats.steps ≠ [])) := by
  rcases runNPE_emits h with rfl | ⟨wl', c, s, st, rep', hr, hrep, _, he⟩
  · exact absurd hf (by simp)
  obtain ⟨m, transfers, steps, hm, ht, hs, e⟩ := legacy_parts he hl hf
  have hcm : (Schema.name ["fast", "none"]).fits (.str api.cfg.congestionModel) = true := by
    rcases hcm with h | h <;> rw [h] <;> rfl
  have h1 : (Schema.list (oldTransferShape .written (.list (oldLink .written)))).fits (.arr transfers) = true :=
    fits_all (mapM_forall (P := fun x => (oldTransferShape .written (.list (oldLink .written))).fits x = true) ht
      fun t j hj => by
        obtain ⟨dst, attrs, rfl⟩ := transferV0_ok hj
        exact fits_transferV0 _ _ _)
  have h2 : (Schema.list (oldTimestepShape .written)).fits (.arr steps) = true :=
    fits_all (mapM_forall (P := fun x => (oldTimestepShape .written).fits x = true) hs fun r j hj => fits_timestepV0 hj)
  have key : ∀ g : Schema, (oldWritten { Names.written with figure := g }).fits f.2 = true ↔
      g.fits m.summary.dramUtil.json = true ∧ g.fits m.summary.avgLinkUtil.json = true ∧
        g.fits m.summary.avgLinkDemand.json = true := fun g => by
    rw [e]
    show ((true && ((Schema.name ["fast", "none"]).fits (.str api.cfg.congestionModel) && (true && (true && (true &&
      (g.fits m.summary.dramUtil.json && (g.fits m.summary.avgLinkUtil.json &&
      (g.fits m.summary.avgLinkDemand.json && (true && true))))))))) &&
      ((Schema.list (oldTransferShape .written (.list (oldLink .written)))).fits (.arr transfers) &&
      ((Schema.list (oldTimestepShape .written)).fits (.arr steps) && true))) = true ↔ _
    rw [h1, h2, hcm]
    simp only [Bool.and_eq_true, Bool.true_and, Bool.and_true]
  refine ⟨(key _).2 ⟨dbl_orNull _, dbl_orNull _, dbl_orNull _⟩, fun hbw => ?_⟩
  have hn := figures_numbers hbw (report_mem hrep (Fabric.mem_of_lookup hm))
  have hk : (oldWritten .numbers).fits f.2 = true ↔ m.stats.golden ≠ 0 ∧ m.stats.steps ≠ [] := by
    rw [← hn]
    refine (key .num).trans ⟨fun hh => ?_, fun hh => ⟨hh.1, hh.2.1, hh.2.2.1⟩⟩
    have hst := hh.2.1
    have := report_mem hrep (Fabric.mem_of_lookup hm)
    unfold computeSummary at this
    simp only [bind_eq_ok] at this
    obtain ⟨bytes, _, eth, _, this⟩ := this
    have e := Out.ok.inj this
    unfold FiguresFit
    rw [← e] at hst hh ⊢
    simp only [avgOver, fits_scale, fits_fdiv] at hst hh ⊢
    tauto
  rcases hr with hr | hr
  · rw [← Sum.inl.inj hr] at hm
    exact ⟨m, hm, hk⟩
  · exact ⟨{ m with stats := { m.stats with estimatedCongFree := m.stats.estimated } },
      by rw [Sum.inl.inj hr, setCongFree_lookup, hm]; rfl, hk⟩

/-- Violated: no legacy file with a transfer is as published, whatever the names, since no route is a list of lists. -/
theorem C132_violated_legacy (fp : FP) (ho : HashOrder) (ord : List (Int × List Int) → List (Int × List Int)) (api : Api)
    (tc : TimelineConfig) (hl : tc.legacy = true) (wl : Workload) (r : Result) (files : List (List Char × Json))
    (h : api.runNPEFiles fp ho ord tc wl = .ok (r, files)) (f : List Char × Json) (hf : f ∈ files) (t : Json) (l : List Json)
    (ht : f.2.field "noc_transfers" = some (.arr (t :: l))) (n : Names) :
    (oldShape n (.list (.list (oldLink n)))).fits f.2 = false := by
  rw [← Bool.not_eq_true]
  intro hfit
  rcases runNPE_emits h with rfl | ⟨wl', c, _, st, rep, _, _, _, he⟩
  · exact absurd hf (by simp)
  obtain ⟨v, hv, hfit⟩ := fits_key (k := "noc_transfers") hfit (by
    repeat first | exact List.mem_cons_self | apply List.mem_cons_of_mem)
  rw [ht] at hv
  have := Option.some.inj hv
  subst this
  have hfit : (_ && _) = true := hfit
  rw [Bool.and_eq_true] at hfit
  obtain ⟨w, hw, hfit⟩ := fits_key (k := "route") hfit.1 (by
    repeat first | exact List.mem_cons_self | apply List.mem_cons_of_mem)
  obtain ⟨m, transfers, steps, _, hts, _, e⟩ := legacy_parts he hl hf
  rw [e] at ht
  have hm : Json.arr transfers = .arr (t :: l) := Option.some.inj ht
  have hm := Json.arr.inj hm
  subst hm
  have hj := mapM_forall (P := fun x => ∃ t dst attrs, x = transferJsonV0 t dst attrs) hts (fun t j hj => by
    obtain ⟨dst, attrs, hj⟩ := transferV0_ok hj
    exact ⟨t, dst, attrs, hj⟩) t List.mem_cons_self
  obtain ⟨t0, dst, attrs, rfl⟩ := hj
  have := Option.some.inj (show some (Json.arr (
    .arr [.int t0.params.src.row, .int t0.params.src.col, .str (HopKind.entry t0.params.noc).name] ::
    (attrs.map fun a => .arr [.int a.coord.row, .int a.coord.col, .str a.type.name]) ++
    dst.map fun c => .arr [.int c.row, .int c.col, .str (HopKind.exit t0.params.noc).name])) = some w from hw)
  subst this
  have hx : (Schema.list (oldLink n)).fits (.arr [.int t0.params.src.row, .int t0.params.src.col,
      .str (HopKind.entry t0.params.noc).name]) = true :=
    List.all_eq_true.mp hfit _ (List.mem_cons_self)
  have hy : (oldLink n).fits (.int t0.params.src.row) = true := List.all_eq_true.mp hx _ (List.mem_cons_self)
  exact absurd hy Bool.false_ne_true

/-- Do the files of a run fit? -/
def filesFit (s : Schema) (x : Option (Out (Result × List (List Char × Json)))) : Option (List Bool) :=
  match x with
  | some (.ok (_, files)) => some (files.map fun f => s.fits f.2)
  | _ => none

/-- The run of C87 into three split files, with golden cycles and without. -/
example : filesFit (timelineShape .numbers) (sampleFiles zoned { threshold := 3 }) = some [true, true, true, true] ∧
    filesFit (timelineShape .published) (sampleFiles zoned { threshold := 3 }) = some [false, false, false, false] ∧
    filesFit (timelineShape .written) (sampleFiles { zoned with golden := [(0, (0, 0)), (-1, (0, 0))] } {}) = some [true] ∧
    filesFit (timelineShape .numbers) (sampleFiles { zoned with golden := [(0, (0, 0)), (-1, (0, 0))] } {}) = some [false] := by
  decide +kernel

example : filesFit (oldWritten .numbers) (sampleFiles zoned { legacy := true }) = some [true] ∧
    filesFit oldPublished (sampleFiles zoned { legacy := true }) = some [false] ∧
    filesFit (oldShape .numbers (.list (.list (oldLink .numbers)))) (sampleFiles zoned { legacy := true }) = some [false] := by
  decide +kernel

/-- Part of the example in timeline_schema_v1.json. -/
def schemaExample : Json := .obj [
  ("common_info", .obj [
    ("version", .str "1.0.0"), ("cycles_per_timestep", .int 128), ("congestion_model_name", .str "fast"),
    ("mesh_device", .str "T3K"), ("arch", .str "wormhole_b0"), ("dram_bw_util", .double (231 / 10)),
    ("link_util", .double (101 / 10)), ("link_demand", .double (201 / 10)), ("max_link_demand", .double (331 / 10)),
    ("noc", .obj [
      ("NOC_0", .obj [("avg_link_demand", .double (1548 / 100)), ("avg_link_util", .double (1353 / 100)),
        ("max_link_demand", .double (4056 / 100))]),
      ("NOC_1", .obj [("avg_link_demand", .double (1413 / 100)), ("avg_link_util", .double (135 / 10)),
        ("max_link_demand", .double (337 / 10))])])]),
  ("chips", .obj [("0", .arr [.int 1, .int 0, .int 0, .int 0]), ("1", .arr [.int 1, .int 1, .int 0, .int 0])]),
  ("noc_transfers", .arr [.obj [
    ("transfer_id", .int 0), ("noc_event_type", .str "READ"), ("total_bytes", .int 2048),
    ("src", .arr [.int 0, .int 1, .int 1]), ("dst", .arr [.arr [.int 0, .int 3, .int 1]]),
    ("start_cycle", .int 0), ("end_cycle", .int 120),
    ("route", .arr [.obj [
      ("device_id", .int 0), ("src", .arr [.int 0, .int 1, .int 1]), ("dst", .arr [.arr [.int 0, .int 3, .int 1]]),
      ("noc_type", .str "NOC_0"), ("injection_rate", .double (281 / 10)), ("start_cycle", .int 0),
      ("end_cycle", .int 200),
      ("links", .arr [.arr [.int 0, .int 1, .int 1, .str "NOC_0_SOUTH"],
        .arr [.int 0, .int 2, .int 1, .str "NOC_0_SOUTH"]])]])]]),
  ("timestep_data", .arr [.obj [
    ("start_cycle", .int 0), ("end_cycle", .int 128), ("active_transfers", .arr [.int 0, .int 1]),
    ("avg_demand", .double (151 / 10)), ("avg_util", .double (101 / 10)),
    ("link_demand", .arr [.arr [.int 0, .int 1, .int 1, .str "NOC_0_SOUTH", .double 2]])]])]

example : (timelineShape .published).fits schemaExample = true ∧ (timelineShape .written).fits schemaExample = false := by
  decide +kernel

/-- Does a run write files? -/
def writes (x : Out (Result × List (List Char × Json))) : Bool :=
  match x with
  | .ok (_, _ :: _) => true
  | _ => false

theorem C132_violated_claim : ¬ C132_claim := by
  intro hclaim
  have hw : writes ((Api.mk {} Sample.dev).runNPEFiles .exact ⟨id, id⟩ id { emit := true } zoned) = true := by decide +kernel
  cases hx : (Api.mk {} Sample.dev).runNPEFiles .exact ⟨id, id⟩ id { emit := true } zoned with
  | ok p =>
    obtain ⟨r, files⟩ := p
    cases files with
    | nil => rw [hx] at hw; exact absurd hw Bool.false_ne_true
    | cons f files =>
      have h1 := hclaim .exact (Api.mk {} Sample.dev) (Or.inl rfl) ⟨id, id⟩ id { emit := true } zoned r _ hx f List.mem_cons_self
      have h2 := C132_violated .exact ⟨id, id⟩ id (Api.mk {} Sample.dev) { emit := true } rfl zoned r _ hx f List.mem_cons_self
      exact absurd (h2.symm.trans h1) Bool.false_ne_true
  | _ => rw [hx] at hw; exact absurd hw Bool.false_ne_true

end NPE.Props
