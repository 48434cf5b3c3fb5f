import Verif.Proofs.Document
import Verif.Props.Analyze
import Verif.Props.Api
import Verif.Props.Timeline
import Verif.Props.Zones

/-
Properties C86 to C90: the timeline files that a run leaves behind.
-/

namespace NPE.Props
open Spec Spec.Doc Out

/-! ### C86: names of files -/

theorem forall₂_names {α β γ : Type} {R : α → β → Prop} {f : α → γ} {g : β → γ} {a : List α} {b : List β}
    (h : List.Forall₂ R a b) (hR : ∀ x y, R x y → g y = f x) : b.map g = a.map f := by
  induction h with
  | nil => rfl
  | cons h _ ih => rw [List.map_cons, List.map_cons, hR _ _ h, ih]

theorem range_zip_fst {α : Type} (l : List α) : ((List.range l.length).zip l).map (·.1) = List.range l.length := by
  rw [List.map_fst_zip]
  simp

/-- The names of all files, in the order in which they are written. -/
theorem emit_names {fp : FP} {cfg : Config} {dev : Device} {ord : List (Int × List Int) → List (Int × List Int)}
    {tc : TimelineConfig} {wl : Workload} {ts : List TState} {rep : Report} {files : List (List Char × Json)}
    (h : emitFiles fp cfg dev ord tc wl ts rep = .ok files) :
    files.map (·.1) = tc.fileName tc.base ::
      (List.range (files.length - 1)).map fun i => tc.fileName (tc.splitName i) := by
  cases hl : tc.legacy with
  | true =>
    obtain ⟨_, _, _, _, rfl⟩ := emitFiles_legacy h hl
    rfl
  | false =>
    obtain ⟨r, rs, j, l, _, _, _, hf, rfl⟩ := emitFiles_v1 h hl
    have hlen := hf.length_eq
    rw [List.length_zip, List.length_range, Nat.min_self] at hlen
    have e : ((List.range rs.length).zip rs).map (fun e => tc.fileName (tc.splitName e.1)) =
        (((List.range rs.length).zip rs).map (·.1)).map fun i => tc.fileName (tc.splitName i) := by
      rw [List.map_map]; rfl
    rw [List.map_cons, forall₂_names (f := fun e => tc.fileName (tc.splitName e.1)) hf (by
      rintro x y ⟨j, _, rfl⟩; rfl), e, range_zip_fst, hlen]
    rfl

theorem fileName_inj {tc : TimelineConfig} {a b : List Char} (h : tc.fileName a = tc.fileName b) : a = b := by
  unfold TimelineConfig.fileName at h
  split at h
  · exact List.append_cancel_right h
  · exact h

theorem split_inj {tc : TimelineConfig} {i k : Nat} (h : tc.splitName i = tc.splitName k) : i = k := by
  unfold TimelineConfig.splitName at h
  have h1 := List.append_cancel_right h
  have h2 := List.append_cancel_left h1
  exact decimal_injective (denotes_decimal i) (denotes_decimal k) h2

theorem split_base (tc : TimelineConfig) (i : Nat) : tc.base ≠ tc.splitName i := by
  intro h
  by_cases ho : Occurs ext tc.base
  · obtain ⟨b, hb⟩ := beforeFirst_split ext tc.base ho (by decide)
    have h2 := hb.symm.trans h
    unfold TimelineConfig.splitName at h2
    rw [List.append_assoc, List.append_assoc, List.append_assoc] at h2
    have h3 := congrArg List.head? (List.append_cancel_left h2)
    exact absurd h3 (by simp [ext])
  · unfold TimelineConfig.splitName at h
    rw [beforeFirst_absent ext _ ho] at h
    have := congrArg List.length h
    simp at this

/-- C86.  No two files of a run have the same name. -/
theorem C86_distinct (fp : FP) (cfg : Config) (dev : Device) (ord : List (Int × List Int) → List (Int × List Int))
    (tc : TimelineConfig) (wl : Workload) (ts : List TState) (rep : Report) (files : List (List Char × Json))
    (h : emitFiles fp cfg dev ord tc wl ts rep = .ok files) : (files.map (·.1)).Nodup := by
  rw [emit_names h, List.nodup_cons]
  refine ⟨fun hm => ?_, ?_⟩
  · obtain ⟨i, _, hi⟩ := List.mem_map.mp hm
    exact split_base tc i (fileName_inj hi).symm
  · exact List.nodup_range.map fun i k hik => split_inj (fileName_inj hik)

/-- C86, given path.  With the path `P.npeviz` the full document goes there, and the `i`-th split document next to
it as `P_split_i.npeviz`; compressed files have the suffix `.zst`. -/
theorem C86_names (fp : FP) (cfg : Config) (dev : Device) (ord : List (Int × List Int) → List (Int × List Int))
    (tc : TimelineConfig) (wl : Workload) (ts : List TState) (rep : Report) (files : List (List Char × Json))
    (h : emitFiles fp cfg dev ord tc wl ts rep = .ok files) (P : List Char) (hP : ¬ Occurs ".npeviz".toList P)
    (hpath : tc.path = P ++ ".npeviz".toList) :
    ∃ zst, (zst = if tc.compress then ".zst".toList else []) ∧
    ∃ splits, files.map (·.1) = (P ++ ".npeviz".toList ++ zst) :: splits ∧
      ∀ i s, splits[i]? = some s → ∃ ds, Analyze.Denotes ds i ∧
        s = P ++ "_split_".toList ++ ds ++ ".npeviz".toList ++ zst := by
  have hb : tc.base = P ++ ext := by
    unfold TimelineConfig.base
    rw [if_neg, hpath]
    rw [hpath]
    exact fun hc => absurd (List.append_eq_nil_iff.mp hc).2 (by decide)
  have hf : ∀ x, tc.fileName x = x ++ if tc.compress then ".zst".toList else [] := by
    intro x
    unfold TimelineConfig.fileName
    split
    · rfl
    · rw [List.append_nil]
  refine ⟨_, rfl, _, by rw [emit_names h, hf, hb], fun i s hs => ?_⟩
  rw [List.getElem?_map] at hs
  obtain ⟨k, hk, rfl⟩ := Option.map_eq_some_iff.mp hs
  obtain rfl : i = k := by
    obtain ⟨h1, h2⟩ := List.getElem?_eq_some_iff.mp hk
    rw [List.getElem_range] at h2
    exact h2
  refine ⟨Analyze.decimal i, denotes_decimal i, ?_⟩
  rw [hf]
  unfold TimelineConfig.splitName
  have := beforeFirst_ext P [] hP
  rw [List.append_nil] at this
  rw [hb, this]

/-- C86, default path.  Without a path, the name is formed from the stem of the workload file, if that is in
the current directory. -/
theorem C86_default (tc : TimelineConfig) (hp : tc.path = []) (stem e : List Char) (he : '.' ∉ e)
    (hw : tc.workloadJson = stem ++ '.' :: e) :
    tc.base = "npe_timeline_".toList ++ stem ++ ".npeviz".toList := by
  unfold TimelineConfig.base
  rw [if_pos hp, hw, if_neg (by simp), beforeLastDot_ext _ _ he]

/-- Different stems give different names. -/
theorem C86_default_distinct (tc tc' : TimelineConfig) (hp : tc.path = []) (hp' : tc'.path = []) (stem stem' e : List Char)
    (he : '.' ∉ e) (hw : tc.workloadJson = stem ++ '.' :: e) (hw' : tc'.workloadJson = stem' ++ '.' :: e)
    (h : tc.base = tc'.base) : stem = stem' := by
  rw [C86_default tc hp stem e he hw, C86_default tc' hp' stem' e he hw'] at h
  exact List.append_cancel_left (List.append_cancel_right h)

/-- What one expects of the default: the file is written to a directory that exists, the one of the workload file or
the current one. -/
def C86_claim : Prop := ∀ (tc : TimelineConfig) (d f : List Char), tc.path = [] → InDir d f tc.workloadJson →
  '/' ∉ tc.base ∨ ∃ g, InDir d g tc.base

/-- Violated: the prefix is put before the directory, so that the timeline of `d/f.ext` goes to the directory
`npe_timeline_d`.  A missing directory is only logged, so that no timeline is written at all. -/
theorem C86_violated_directory (tc : TimelineConfig) (hp : tc.path = []) (d f e : List Char) (hf : '/' ∉ f) (he : '.' ∉ e)
    (hw : tc.workloadJson = d ++ '/' :: f ++ '.' :: e) :
    InDir ("npe_timeline_".toList ++ d) (f ++ ".npeviz".toList) tc.base := by
  refine ⟨?_, ?_⟩
  · rw [C86_default tc hp _ e he hw]
    simp
  · simp only [List.mem_append, not_or]
    exact ⟨hf, by decide⟩

theorem inDir_unique {d d' f f' p : List Char} (h : InDir d f p) (h' : InDir d' f' p) : d = d' ∧ f = f' := by
  obtain ⟨rfl, hf⟩ := h
  obtain ⟨h', hf'⟩ := h'
  rw [List.append_eq_append_iff] at h'
  rcases h' with ⟨t, ht, h2⟩ | ⟨t, ht, h2⟩
  · cases t with
    | nil => simp at ht h2; exact ⟨ht.symm, h2⟩
    | cons c t =>
      exfalso
      simp only [List.cons_append, List.cons.injEq] at h2
      apply hf
      rw [h2.2]
      simp
  · cases t with
    | nil => simp at ht h2; exact ⟨ht, h2.symm⟩
    | cons c t =>
      exfalso
      simp only [List.cons_append, List.cons.injEq] at h2
      apply hf'
      rw [h2.2]
      simp

theorem C86_violated : ¬ C86_claim := by
  intro h
  have hd := C86_violated_directory { workloadJson := "runs/noc.json".toList } rfl "runs".toList "noc".toList "json".toList
    (by decide) (by decide) rfl
  rcases h { workloadJson := "runs/noc.json".toList } "runs".toList "noc.json".toList rfl ⟨rfl, by decide⟩ with h | ⟨g, h⟩
  · exact absurd h (by decide +kernel)
  · exact absurd (inDir_unique hd h).1 (by decide)

/-- Violated: if the extension occurs in the name of a directory, split files are written outside of that directory
under names that do not depend on the given file name, so that the next run replaces them. -/
theorem C86_violated_split (tc : TimelineConfig) (d f : List Char) (hd : ¬ Occurs ".npeviz".toList d)
    (hp : tc.path = d ++ ".npeviz/".toList ++ f) (i : Nat) :
    tc.splitName i = d ++ "_split_".toList ++ Analyze.decimal i ++ ".npeviz".toList := by
  have hb : tc.base = d ++ ext ++ '/' :: f := by
    unfold TimelineConfig.base
    rw [if_neg, hp]
    · simp [ext]
    · rw [hp]; simp
  unfold TimelineConfig.splitName
  rw [hb, beforeFirst_ext d _ hd]

example : ({ path := "out.npeviz/a.npeviz".toList } : TimelineConfig).splitName 3 = "out_split_3.npeviz".toList ∧
    ({ path := "out.npeviz/b.npeviz".toList } : TimelineConfig).splitName 3 = "out_split_3.npeviz".toList ∧
    ({ path := "out/b.npeviz".toList } : TimelineConfig).splitName 12 = "out/b_split_12.npeviz".toList ∧
    ({ workloadJson := "noc_trace.json".toList } : TimelineConfig).base = "npe_timeline_noc_trace.npeviz".toList ∧
    ({} : TimelineConfig).base = "npe_timeline.npeviz".toList := by decide +kernel

/-! ### C87: documents can be read back -/

/-- Reading the document `j` by the names of its fields gives the transfers and the timesteps of the timeline of a
region, the recorded figures of each timestep and of the run, and the zones of each core. -/
def C87_reads (fp : FP) (cfg : Config) (dev : Device) (ord : List (Int × List Int) → List (Int × List Int))
    (d : RunData) (region : Option Region) (j : Json) : Prop :=
  ∃ tl rootss, serializeV1 fp dev ord d.wl d.ts d.stats.steps region = .ok tl ∧
    List.Forall₂ (fun (e : (Coord × RiscType) × List Zone) roots => emitZones region e.2 = .ok roots) d.wl.zones rootss ∧
    ∃ n0, ∀ n, n0 ≤ n → content? n j = some ⟨infoOf cfg dev d.summary, tl.transfers,
      List.zipWith (fun r e => (e, recorded r)) (d.stats.steps.filter (listedStep region)) tl.timesteps,
      List.zipWith (fun e roots => (e.1.1, e.1.2, roots)) d.wl.zones rootss⟩

/-- C87, all files of a run.  The first file holds the full timeline; the others hold the timelines of the regions,
in order, and say which region they are about. -/
theorem C87_files (fp : FP) (cfg : Config) (dev : Device) (ord : List (Int × List Int) → List (Int × List Int))
    (tc : TimelineConfig) (wl : Workload) (ts : List TState) (rep : Report) (files : List (List Char × Json))
    (chips : List (String × Json)) (hc : chipsSection dev tc.topology = .ok (some chips)) (hl : tc.legacy = false)
    (h : emitFiles fp cfg dev ord tc wl ts rep = .ok files) :
    ∃ r rs full splits, rep.lookup MESH_DEVICE = some r ∧ splitRegions r.stats.steps tc.threshold = .ok rs ∧
      files = full :: splits ∧
      C87_reads fp cfg dev ord ⟨wl, ts, r.stats, r.summary⟩ none full.2 ∧
      List.Forall₂ (fun (e : Nat × Region) f => part? f.2 = some ⟨e.1, rs.length, e.2⟩ ∧
        C87_reads fp cfg dev ord ⟨wl, ts, r.stats, r.summary⟩ (some e.2) f.2)
        ((List.range rs.length).zip rs) splits := by
  obtain ⟨r, rs, j, l, hr, hj, hrs, hf, rfl⟩ := emitFiles_v1 h hl
  refine ⟨r, rs, _, l, hr, hrs, rfl, ?_, ?_⟩
  · obtain ⟨tl, zones, htl, hz, rfl⟩ := documentV1_ok hc hj
    obtain ⟨cs, hcs, n0, hn⟩ := zones_read hz
    refine ⟨tl, cs, htl, hcs, n0, fun n hle => ?_⟩
    have := content_read (chips := chips) (rest := []) (tl := tl)
      (steps := r.stats.steps.filter (listedStep none)) (cfg := cfg) (dev := dev) (s := r.summary) rfl (hn n hle)
    rw [List.append_nil] at this
    exact this
  · refine hf.imp ?_
    rintro e f ⟨j, hj, rfl⟩
    obtain ⟨tl, zones, htl, hz, rfl⟩ := documentV1_ok hc hj
    refine ⟨part_read .., ?_⟩
    obtain ⟨cs, hcs, n0, hn⟩ := zones_read hz
    refine ⟨tl, cs, htl, hcs, n0, fun n hle => ?_⟩
    obtain ⟨ci, hci, e'⟩ := split_fields e.1 rs.length e.2 cfg dev r.summary [
        ("chips", .obj chips),
        ("noc_transfers", .arr (tl.transfers.map LogicalTransfer.json)),
        ("zones", .arr zones),
        ("timestep_data", .arr (List.zipWith timestepJson (r.stats.steps.filter (listedStep (some e.2)))
          tl.timesteps))]
    simp only
    rw [e']
    exact content_read hci (hn n hle)

/-- A run of two grouped transfers, a transfer on its own, and zones on one core. -/
def zoned : Workload :=
  { windowed 0 mixed with numTransferGroups := 1, zones := [((⟨0, 0, 1⟩, .brisc), nested.events)] }

/-- The files of a run. -/
def sampleFiles (wl : Workload) (tc : TimelineConfig) : Option (Out (Result × List (List Char × Json))) :=
  some ((Api.mk {} Sample.dev).runSimFiles .exact ⟨id, id⟩ id { tc with emit := true } true wl)

/-- Part of what is read from a file: its name, its number, ids and end cycles of the transfers, ends and utilisation
of the timesteps, number of outer zones of each core. -/
structure FileView where
  name : String
  index : Option Nat
  transfers : List (Int × Nat)
  timesteps : List (Nat × ℚ)
  zones : List Nat
  deriving DecidableEq

/-- All files, as read. -/
def readFiles (x : Option (Out (Result × List (List Char × Json)))) : Option (List (Option FileView)) :=
  match x with
  | some (.ok (_, files)) => some (files.map fun f => (content? 10 f.2).map fun c =>
      ⟨String.ofList f.1, (part? f.2).map (·.index), c.transfers.map fun t => (t.id, t.endc),
        c.timesteps.map fun s => (s.1.endc, s.2.util), c.cores.map fun z => z.2.2.length⟩)
  | _ => none

/-- Group 0 and the transfer on its own; the last timestep is the invented one.  The two outer zones end at 100 and
120. -/
example : readFiles (sampleFiles zoned { path := "a/b.npeviz".toList, threshold := 3 }) = some [
    some ⟨"a/b.npeviz", none, [(0, 556), (1, 400)], [(128, 5 / 12), (256, 5 / 12), (384, 5 / 12), (512, 5 / 12),
      (640, 5 / 24), (768, 5 / 24), (0, 0)], [2]⟩,
    some ⟨"a/b_split_0.npeviz", some 0, [(1, 400)], [(128, 5 / 12), (256, 5 / 12), (384, 5 / 12), (0, 0)], [2]⟩,
    some ⟨"a/b_split_1.npeviz", some 1, [(0, 556), (1, 400)], [(512, 5 / 12), (640, 5 / 24), (768, 5 / 24)], [0]⟩,
    some ⟨"a/b_split_2.npeviz", some 2, [], [(0, 0)], [0]⟩] := by decide +kernel

/-- What the published description of the format (tt_npe/scripts/timeline_schema_v1.json) asks for in a transfer:
its id, and the names of the NoCs in its route. -/
def SchemaTransfer (j : Json) : Prop :=
  (∃ i, get j "transfer_id" id? = some i) ∧
  ∀ r, get j "route" (list? some) = some r → ∀ s ∈ r, get s "noc_type" text? ∈ [some "NOC_0", some "NOC_1"]

/-- Violated: no transfer in any document is as described. -/
theorem C87_violated_schema (t : LogicalTransfer) : ¬ SchemaTransfer t.json := by
  rintro ⟨⟨i, h⟩, _⟩
  exact absurd (h : none = some i) nofun

/-- Nor are the names of NoCs. -/
theorem C87_violated_noc (s : Segment) : get s.json "noc_type" text? ∉ [some "NOC_0", some "NOC_1"] := by
  intro h
  have : get s.json "noc_type" text? = some s.noc.name := rfl
  rw [this] at h
  cases hn : s.noc <;> rw [hn] at h <;> exact absurd h (by decide)

/-! ### C88: the places of the chips -/

theorem toI32_small {n : Int} (h : -2147483648 ≤ n ∧ n < 2147483648) : toI32 n = n := by
  unfold toI32
  simp only
  split <;> omega

theorem getInt_small {n : Int} (h : 0 ≤ n ∧ n < 2147483648) : getInt (.int n) = .ok n := by
  unfold getInt
  simp only
  rw [if_pos (by omega), toI32_small (by omega)]

theorem integer?_small {n : Int} (h : 0 ≤ n ∧ n < 4294967296) : integer? (.int n) = some n := by
  unfold integer?
  simp only
  rw [if_pos (by omega)]

theorem row_major {x y ew : Int} (hx : 0 ≤ x) (hx' : x < ew) (hy : 0 ≤ y) :
    (y * ew + x).tdiv ew = y ∧ (y * ew + x).tmod ew = x := by
  have h0 : 0 ≤ y * ew + x := by
    have := mul_nonneg hy (by omega : (0 : Int) ≤ ew)
    omega
  rw [Int.tdiv_eq_ediv_of_nonneg h0, Int.tmod_eq_emod_of_nonneg h0]
  constructor
  · rw [add_comm, Int.add_mul_ediv_right _ _ (by omega), Int.ediv_eq_zero_of_lt hx hx']
    omega
  · rw [add_comm, Int.add_mul_emod_self_right, Int.emod_eq_of_lt hx hx']

theorem chipPlaces_ok {ns ew : Int} (hs : 0 ≤ ns ∧ ns < 2147483648 ∧ 0 ≤ ew ∧ ew < 2147483648 ∧ ns * ew ≤ 2147483648) :
    ∀ chips : List ChipPlace, (∀ c ∈ chips, 0 ≤ c.x ∧ c.x < ew ∧ 0 ≤ c.y ∧ c.y < ns) →
      (∀ c ∈ chips, 0 ≤ c.mesh ∧ c.mesh < 4294967296) →
      chipPlaces ew (chips.map fun c => (c.name, .arr [.int c.mesh, .int (c.y * ew + c.x)])) =
        .ok (some (chips.map fun c => (c.name, .arr [.int c.x, .int c.y, .int 0, .int 0]))) := by
  intro chips
  induction chips with
  | nil => intro _ _; rfl
  | cons c chips ih =>
    intro hin hm
    obtain ⟨h1, h2, h3, h4⟩ := hin c (by simp)
    have hlt : c.y * ew + c.x < 2147483648 := by
      have : (c.y + 1) * ew ≤ ns * ew := mul_le_mul_of_nonneg_right (by omega) (by omega)
      nlinarith
    have hge : 0 ≤ c.y * ew + c.x := by
      have := mul_nonneg h3 (by omega : (0 : Int) ≤ ew)
      omega
    rw [List.map_cons]
    unfold chipPlaces
    rw [integer?_small (hm c (by simp)), integer?_small ⟨hge, by omega⟩]
    simp only
    unfold intDivMod
    rw [toI32_small ⟨by omega, hlt⟩, if_neg (by omega), bind_ok, ih (fun d hd => hin d (by simp [hd]))
      (fun d hd => hm d (by simp [hd])), bind_ok, (row_major h1 h2 h3).1, (row_major h1 h2 h3).2]
    rfl

theorem chipsSection_mesh {dev : Device} {j : Json} {ns ew : Int} {chips : List ChipPlace} (hd : 1 < dev.chips)
    (h : OneMesh j ns ew chips) : chipsSection dev (.doc j) =
      .ok (some (chips.map fun c => (c.name, .arr [.int c.x, .int c.y, .int 0, .int 0]))) := by
  obtain ⟨m, hm, hsh⟩ := h.shape
  have hs := h.small
  unfold chipsSection
  rw [if_pos hd]
  simp only
  unfold singleMesh?
  rw [h.nodes, hm]
  simp only
  rw [hsh]
  simp only
  rw [getInt_small ⟨hs.1, hs.2.1⟩, bind_ok, getInt_small ⟨hs.2.2.1, hs.2.2.2.1⟩, bind_ok]
  exact chipPlaces_ok hs chips h.inside h.mesh

/-- C88, boards with several chips in one mesh.  Every document of the run gives each chip of the topology file the
column and row that it has in the mesh. -/
theorem C88_mesh (fp : FP) (cfg : Config) (dev : Device) (ord : List (Int × List Int) → List (Int × List Int))
    (t j : Json) (ns ew : Int) (chips : List ChipPlace) (hd : 1 < dev.chips) (ht : OneMesh t ns ew chips) (d : RunData)
    (region : Option Region) (h : documentV1 fp cfg dev ord (.doc t) d region = .ok j) :
    chips? j = some (chips.map fun c => (c.name, some (c.x, c.y))) := by
  obtain ⟨tl, zones, _, _, rfl⟩ := documentV1_ok (chipsSection_mesh hd ht) h
  change some (List.map _ (List.map _ chips)) = _
  rw [List.map_map]
  rfl

/-- C88, boards with one chip: chip 0 is at the origin, and no topology file is needed. -/
theorem C88_single (fp : FP) (cfg : Config) (dev : Device) (ord : List (Int × List Int) → List (Int × List Int))
    (topology : InputFile) (hd : dev.chips = 1) (d : RunData) (region : Option Region) (j : Json)
    (h : documentV1 fp cfg dev ord topology d region = .ok j) : chips? j = some [("0", some (0, 0))] := by
  have hc : chipsSection dev topology = .ok (some [("0", .arr [.int 0, .int 0, .int 0, .int 0])]) := by
    unfold chipsSection
    rw [if_neg (by omega)]
  obtain ⟨tl, zones, _, _, rfl⟩ := documentV1_ok hc h
  rfl

/-- Violated without a topology file: the document of a board with several chips is empty although the run
succeeded. -/
theorem C88_violated_missing (fp : FP) (cfg : Config) (dev : Device)
    (ord : List (Int × List Int) → List (Int × List Int)) (f : InputFile) (hf : f = .missing ∨ f = .unparsable)
    (hd : 1 < dev.chips) (d : RunData) (region : Option Region) :
    documentV1 fp cfg dev ord f d region = .ok .null := by
  have hc : chipsSection dev f = .ok none := by
    unfold chipsSection
    rw [if_pos hd]
    rcases hf with rfl | rfl <;> rfl
  unfold documentV1
  rw [hc]
  rfl

/-- Violated for topologies of several meshes: no chip has a place. -/
theorem C88_violated_meshes (fp : FP) (cfg : Config) (dev : Device)
    (ord : List (Int × List Int) → List (Int × List Int)) (t j m m' : Json) (ms : List Json)
    (ht : t.field "mesh_shapes" = some (.arr (m :: m' :: ms))) (hd : 1 < dev.chips) (d : RunData)
    (region : Option Region) (h : documentV1 fp cfg dev ord (.doc t) d region = .ok j) : chips? j = some [] := by
  have hc : chipsSection dev (.doc t) = .ok (some []) := by
    unfold chipsSection
    rw [if_pos hd]
    simp only
    have : singleMesh? t = none := by
      unfold singleMesh?
      rw [ht]
      split <;> rename_i heq <;> first | rfl | (simp at heq)
    rw [this]
  obtain ⟨tl, zones, _, _, rfl⟩ := documentV1_ok hc h
  rfl

/-- Violated by topologies whose shape is not a pair of numbers (only parse errors are caught), and by meshes without
columns. -/
theorem C88_violated_shape (fp : FP) (cfg : Config) (dev : Device)
    (ord : List (Int × List Int) → List (Int × List Int)) (hd : 1 < dev.chips) (d : RunData) (region : Option Region)
    (nodes : List (String × Json)) :
    (∀ (s : String) (b : Json), documentV1 fp cfg dev ord (.doc (.obj [("device_id_to_fabric_node_id", .obj nodes),
        ("mesh_shapes", .arr [.obj [("shape", .arr [.str s, b])]])])) d region = .std .jsonType) ∧
    (∀ k mesh n, 0 ≤ mesh → mesh < 4294967296 → 0 ≤ n → n < 2147483648 →
      documentV1 fp cfg dev ord (.doc (.obj [("device_id_to_fabric_node_id", .obj ((k, .arr [.int mesh, .int n]) :: nodes)),
        ("mesh_shapes", .arr [.obj [("shape", .arr [.int 1, .int 0])]])])) d region = .ub) := by
  constructor
  · intro s b
    have hc : chipsSection dev (.doc (.obj [("device_id_to_fabric_node_id", .obj nodes),
        ("mesh_shapes", .arr [.obj [("shape", .arr [.str s, b])]])])) = .std .jsonType := by
      unfold chipsSection
      rw [if_pos hd]
      rfl
    unfold documentV1
    rw [hc]
    rfl
  · intro k mesh n h1 h2 h3 h4
    have hc : chipsSection dev (.doc (.obj [("device_id_to_fabric_node_id", .obj ((k, .arr [.int mesh, .int n]) :: nodes)),
        ("mesh_shapes", .arr [.obj [("shape", .arr [.int 1, .int 0])]])])) = .ub := by
      unfold chipsSection
      rw [if_pos hd]
      have e : ∀ l, chipPlaces 0 ((k, .arr [.int mesh, .int n]) :: l) = .ub := by
        intro l
        unfold chipPlaces
        rw [integer?_small ⟨h1, h2⟩, integer?_small ⟨h3, by omega⟩]
        simp only
        rfl
      exact e nodes
    unfold documentV1
    rw [hc]
    rfl

/-- A mesh of two rows and four columns. -/
def t3kTopology : Json := .obj [("mesh_shapes", .arr [.obj [("mesh_id", .int 0), ("shape", .arr [.int 2, .int 4])]]),
  ("device_id_to_fabric_node_id", .obj [("0", .arr [.int 0, .int 1]), ("4", .arr [.int 0, .int 0]), ("6", .arr [.int 0, .int 7])])]

example : OneMesh t3kTopology 2 4 [⟨"0", 0, 1, 0⟩, ⟨"4", 0, 0, 0⟩, ⟨"6", 0, 3, 1⟩] where
  nodes := rfl
  shape := ⟨_, rfl, rfl⟩
  small := by decide
  inside := by decide
  mesh := by decide

/-! ### C89: the legacy format -/

theorem on_single {dev : Device} (hd : dev.chips = 1) {c : Coord} (h : dev.On c) : c.dev = 0 := by
  have := h.1
  omega

theorem mapM_forall {α β : Type} {f : α → Out β} {P : β → Prop} {l : List α} {m : List β} (h : Out.mapM f l = .ok m)
    (hp : ∀ a b, f a = .ok b → P b) : ∀ b ∈ m, P b := by
  intro b hb
  obtain ⟨a, _, ha⟩ := (mapM_mem h b).mp hb
  exact hp a b ha

theorem demand_single {fp : FP} {dev : Device} (h1 : dev.chips = 1) {gs : Groups} {r : TimestepStats}
    {e : TimestepEntry} (h : emitTimestep fp dev gs r = .ok e) : ∀ x ∈ e.linkDemand, x.1.dev = 0 := by
  unfold emitTimestep at h
  simp only [pure_eq] at h
  rw [bind_eq_ok] at h
  obtain ⟨n, hn, h⟩ := h
  rw [bind_eq_ok] at h
  obtain ⟨l, hl, h⟩ := h
  rw [← Out.ok.inj h]
  intro x hx
  rcases List.mem_append.mp hx with hx | hx
  · refine mapM_forall (P := fun x => x.1.dev = 0) hn (fun a b hab => ?_) x hx
    rw [bind_eq_ok] at hab
    obtain ⟨t, ht, hab⟩ := hab
    rw [← Out.ok.inj hab]
    exact on_single h1 ((dev.getNIUAttributes_eq _ _).mp ht).1
  · refine mapM_forall (P := fun x => x.1.dev = 0) hl (fun a b hab => ?_) x hx
    rw [bind_eq_ok] at hab
    obtain ⟨t, ht, hab⟩ := hab
    rw [← Out.ok.inj hab]
    exact on_single h1 ((dev.getLinkAttributes_eq _ _).mp ht).1

/-- C89, boards with one chip.  Reading a legacy document gives every transfer with its id, bytes, kind and complete
route, and every timestep with its demands and averages. -/
theorem C89_partial (fp : FP) (cfg : Config) (dev : Device) (h1 : dev.chips = 1) (d : RunData)
    (hsrc : ∀ t ∈ d.ts, t.params.src.dev = 0)
    (hdst : ∀ t ∈ d.ts, ∀ l, destinationList dev t.params.dst = .ok l → ∀ c ∈ l, c.dev = 0) (j : Json)
    (h : documentV0 fp cfg dev d = .ok j) (gs : Groups) (es : List TimestepEntry)
    (hes : Out.mapM (emitTimestep fp dev gs) d.stats.steps = .ok es) :
    ∃ segs, List.Forall₂ (fun t s => segmentOf dev t = .ok s) d.ts segs ∧
      get j "noc_transfers" (list? (legacyTransfer? 0)) = some (List.zipWith (fun (t : TState) s =>
        ((t.params.id, t.params.totalBytes, t.params.eventType), s)) d.ts segs) ∧
      get j "timestep_data" (list? (legacyTimestep? 0)) = some (List.zipWith (fun r e =>
        (⟨r.startc, r.endc, (sortBy (fun a b => a ≤ b) r.live).map fun (i : Nat) => (i : Int), e.linkDemand⟩,
          r.avgLinkDemand, r.avgLinkUtil, r.avgMcastUtil)) d.stats.steps es) := by
  unfold documentV0 at h
  rw [bind_eq_ok] at h
  obtain ⟨trs, ht, h⟩ := h
  rw [bind_eq_ok] at h
  obtain ⟨sts, hs, h⟩ := h
  rw [mapM_eq_ok] at ht hs hes
  have key1 : ∀ (ts : List TState) (trs : List Json), List.Forall₂ (fun t j => transferV0 dev t = .ok j) ts trs →
      (∀ t ∈ ts, t.params.src.dev = 0) →
      (∀ t ∈ ts, ∀ l, destinationList dev t.params.dst = .ok l → ∀ c ∈ l, c.dev = 0) →
      ∃ segs, List.Forall₂ (fun t s => segmentOf dev t = .ok s) ts segs ∧
        items (legacyTransfer? 0) trs = some (List.zipWith (fun (t : TState) s =>
          ((t.params.id, t.params.totalBytes, t.params.eventType), s)) ts segs) := by
    intro ts trs h
    induction h with
    | nil => intro _ _; exact ⟨[], .nil, rfl⟩
    | @cons t j ts trs h _ ih =>
      intro hsrc hdst
      obtain ⟨segs, hf, hi⟩ := ih (fun x hx => hsrc x (by simp [hx])) (fun x hx => hdst x (by simp [hx]))
      have h' := h
      unfold transferV0 at h'
      rw [bind_eq_ok] at h'
      obtain ⟨dst, hd1, h'⟩ := h'
      rw [bind_eq_ok] at h'
      obtain ⟨as, ha, h'⟩ := h'
      obtain ⟨s, hseg⟩ := segmentOf_total ⟨⟨dst, hd1⟩, as, ha⟩
      have hs' := hseg
      unfold segmentOf at hs'
      rw [hd1, bind_ok, ha, bind_ok] at hs'
      have e := Out.ok.inj hs'
      have hdd := hdst t (by simp) dst hd1
      have h0 := hsrc t (by simp)
      refine ⟨s :: segs, .cons hseg hf, ?_⟩
      unfold items
      rw [hi, legacyTransfer h h0 hseg (by rw [← e]; exact hdd) ?_]
      · rfl
      · rw [← e]
        intro x hx
        simp only [List.cons_append, List.mem_cons, List.mem_append, List.mem_map] at hx
        rcases hx with rfl | ⟨a, ha', rfl⟩ | ⟨c, hc, rfl⟩
        · exact h0
        · exact mapM_forall (P := fun (a : LinkAttr) => a.coord.dev = 0) ha
            (fun i b hib => on_single h1 ((dev.getLinkAttributes_eq _ _).mp hib).1) a ha'
        · exact hdd c hc
  have key2 : ∀ (rs : List TimestepStats) (js : List Json) (es : List TimestepEntry),
      List.Forall₂ (fun r j => timestepV0 fp dev r = .ok j) rs js →
      List.Forall₂ (fun r e => emitTimestep fp dev gs r = .ok e) rs es →
      items (legacyTimestep? 0) js = some (List.zipWith (fun r e =>
        (⟨r.startc, r.endc, (sortBy (fun a b => a ≤ b) r.live).map fun (i : Nat) => (i : Int), e.linkDemand⟩,
          r.avgLinkDemand, r.avgLinkUtil, r.avgMcastUtil)) rs es) := by
    intro rs js es h
    induction h generalizing es with
    | nil => intro h; cases h; rfl
    | @cons r j rs js h _ ih =>
      intro h2
      cases h2 with
      | @cons _ e _ es he h2 =>
        unfold items
        rw [legacyTimestep h he (demand_single h1 he), ih es h2]
        rfl
  obtain ⟨segs, hf, hi⟩ := key1 _ _ ht hsrc hdst
  refine ⟨segs, hf, ?_, ?_⟩
  · rw [← Out.ok.inj h]; exact hi
  · rw [← Out.ok.inj h]; exact key2 _ _ _ hs hes

/-- The claim for all boards: the tile that a transfer comes from can be read from its entry. -/
def C89_claim : Prop := ∀ dev : Device, DeviceOk dev → ∃ read : Json → Option Coord,
  ∀ (t : TState) (j : Json), transferV0 dev t = .ok j → read j = some t.params.src

/-- A transfer between two tiles of a chip, with its route on the board of two chips. -/
def onChip (d : Int) (route : List Int) : TState :=
  { params := { Transfer.make 64 1 ⟨d, 0, 1⟩ (.unicast ⟨d, 1, 1⟩) 1 0 .noc0 with id := 0 }, route := route, start := 0 }

/-- Violated on boards with several chips: the entry does not name the chip. -/
theorem C89_violated : ¬ C89_claim ∧ twoChips.route id .noc0 ⟨0, 0, 1⟩ (.unicast ⟨0, 1, 1⟩) = .ok [5] ∧
    twoChips.route id .noc0 ⟨1, 0, 1⟩ (.unicast ⟨1, 1, 1⟩) = .ok [21] := by
  refine ⟨fun h => ?_, by decide +kernel, by decide +kernel⟩
  obtain ⟨read, hr⟩ := h twoChips ⟨by decide, by decide, by decide, by decide, by decide⟩
  have e : transferV0 twoChips (onChip 0 [5]) = transferV0 twoChips (onChip 1 [21]) := rfl
  obtain ⟨j, hj⟩ : ∃ j, transferV0 twoChips (onChip 0 [5]) = .ok j := ⟨_, rfl⟩
  have h0 := hr _ j hj
  rw [hr _ j (e ▸ hj)] at h0
  exact absurd h0 (by decide)

/-- The legacy document of the run above, read on chip 0: ids and end cycles of the transfers, ends and utilisation of
the timesteps. -/
def readLegacy (x : Option (Out (Result × List (List Char × Json)))) : Option FileView :=
  match x with
  | some (.ok (_, [f])) =>
    (get f.2 "noc_transfers" (list? (legacyTransfer? 0))).bind fun t =>
    (get f.2 "timestep_data" (list? (legacyTimestep? 0))).bind fun s =>
    some ⟨String.ofList f.1, none, t.map fun t => (t.1.1, t.2.endc), s.map fun s => (s.1.endc, s.2.2.1), []⟩
  | _ => none

example : readLegacy (sampleFiles zoned { legacy := true }) = some ⟨"npe_timeline.npeviz", none,
    [(0, 556), (1, 400), (2, 740)], [(128, 5 / 12), (256, 5 / 12), (384, 5 / 12), (512, 5 / 12),
      (640, 5 / 24), (768, 5 / 24), (0, 0)], []⟩ := by decide +kernel

/-! ### C90: writing a timeline and the estimate -/

/-- C90, simulations.  A simulation that returns statistics and writes files returns the same statistics as one that
writes none. -/
theorem runSimFiles_same {fp : FP} {ho : HashOrder} {ord : List (Int × List Int) → List (Int × List Int)} {api : Api}
    {tc : TimelineConfig} {congestion : Bool} {wl : Workload} {r : Result} {files : List (List Char × Json)}
    (h : api.runSimFiles fp ho ord tc congestion wl = .ok (r, files)) : api.runSim fp ho congestion wl = .ok r := by
  unfold Api.runSimFiles at h
  unfold Api.runSim
  rw [bind_eq_ok] at h
  obtain ⟨x, hx, h⟩ := h
  rw [hx, bind_ok]
  match x, h with
  | .inl (s, st), h =>
    rw [bind_eq_ok] at h
    obtain ⟨rep, hrep, h⟩ := h
    simp only
    rw [hrep, bind_ok]
    split at h
    · rw [bind_eq_ok] at h
      obtain ⟨f, _, h⟩ := h
      have := congrArg Prod.fst (Out.ok.inj h)
      exact congrArg Out.ok this
    · have := congrArg Prod.fst (Out.ok.inj h)
      exact congrArg Out.ok this
  | .inr e, h =>
    have := congrArg Prod.fst (Out.ok.inj h)
    exact congrArg Out.ok this

/-- Without the option no files are written and nothing else changes. -/
theorem runSimFiles_off {fp : FP} {ho : HashOrder} {ord : List (Int × List Int) → List (Int × List Int)} {api : Api}
    {tc : TimelineConfig} {congestion : Bool} {wl : Workload} (ht : tc.emit = false) :
    api.runSimFiles fp ho ord tc congestion wl = api.runSim fp ho congestion wl >>= fun r => .ok (r, []) := by
  unfold Api.runSimFiles Api.runSim
  cases hx : runSingle fp api.dev ho api.cfg.cyclesPerTimestep congestion wl with
  | ok x =>
    rw [bind_ok, bind_ok]
    match x with
    | .inl (s, st) =>
      simp only [ht, Bool.false_eq_true, if_false]
      cases st.report api.dev wl <;> rfl
    | .inr e => rfl
  | _ => rfl

theorem runPerfFiles_same {fp : FP} {ho : HashOrder} {ord : List (Int × List Int) → List (Int × List Int)} {api : Api}
    {tc : TimelineConfig} {wl : Workload} {r : Result} {files : List (List Char × Json)}
    (h : api.runPerfFiles fp ho ord tc wl = .ok (r, files)) : api.runPerf fp ho wl = .ok r := by
  unfold Api.runPerfFiles at h
  simp only at h
  rw [bind_eq_ok] at h
  obtain ⟨x, hx, h⟩ := h
  have h1 := runSimFiles_same (r := x.1) (files := x.2) hx
  unfold Api.runPerf
  simp only
  by_cases hc : api.cfg.estimateCongImpact
  · rw [if_pos hc] at h ⊢
    rw [h1, bind_ok]
    match hx1 : x.1, h with
    | .inr e, h =>
      have := congrArg Prod.fst (Out.ok.inj h)
      exact congrArg Out.ok this
    | .inl st, h =>
      simp only at h ⊢
      rw [bind_eq_ok] at h
      obtain ⟨y, hy, h⟩ := h
      rw [runSimFiles_same (r := y.1) (files := y.2) hy, bind_ok]
      match hy1 : y.1, h with
      | .inr e, h =>
        have := congrArg Prod.fst (Out.ok.inj h)
        exact congrArg Out.ok this
      | .inl _, h =>
        have := congrArg Prod.fst (Out.ok.inj h)
        exact congrArg Out.ok this
  · rw [if_neg hc] at h ⊢
    rw [h1, Out.ok.inj h]

/-- C90.  If an estimate that writes files returns statistics, the estimate without files returns the same. -/
theorem C90_same (fp : FP) (ho : HashOrder) (ord : List (Int × List Int) → List (Int × List Int)) (api : Api)
    (tc : TimelineConfig) (wl : Workload) (rep : Report) (files : List (List Char × Json))
    (h : api.runNPEFiles fp ho ord tc wl = .ok (.inl rep, files)) : api.runNPE fp ho wl = .ok (.inl rep) := by
  unfold Api.runNPEFiles at h
  unfold Api.runNPE
  rw [bind_eq_ok] at h
  obtain ⟨wl', hw, h⟩ := h
  rw [bind_eq_ok] at h
  obtain ⟨v, hv, h⟩ := h
  rw [hw, bind_ok, hv, bind_ok]
  cases v with
  | false => exact absurd (congrArg Prod.fst (Out.ok.inj h)) nofun
  | true =>
    simp only [if_true] at h ⊢
    cases hp : api.runPerfFiles fp ho ord tc wl' with
    | ok x =>
      rw [hp] at h
      rw [runPerfFiles_same (r := x.1) (files := x.2) hp, congrArg Prod.fst (Out.ok.inj h)]
      rfl
    | exc e =>
      rw [hp] at h
      exact absurd (congrArg Prod.fst (Out.ok.inj h)) nofun
    | _ => rw [hp] at h; exact absurd h nofun

/-- Without the option the two are the same. -/
theorem C90_off (fp : FP) (ho : HashOrder) (ord : List (Int × List Int) → List (Int × List Int)) (api : Api)
    (tc : TimelineConfig) (wl : Workload) (ht : tc.emit = false) :
    api.runNPEFiles fp ho ord tc wl = api.runNPE fp ho wl >>= fun r => .ok (r, []) := by
  unfold Api.runNPEFiles Api.runNPE
  cases hw : api.preprocess fp wl with
  | ok wl' =>
    rw [bind_ok, bind_ok]
    cases hv : wl'.validate api.dev with
    | ok v =>
      rw [bind_ok, bind_ok]
      cases v with
      | false => rfl
      | true =>
        simp only [if_true]
        unfold Api.runPerfFiles Api.runPerf
        simp only
        rw [runSimFiles_off ht, runSimFiles_off (tc := { tc with emit := false }) rfl]
        by_cases hc : api.cfg.estimateCongImpact
        · simp only [hc, if_true]
          cases api.runSim fp ho (decide (api.cfg.congestionModel ≠ "none")) wl' with
          | ok x =>
            match x with
            | .inr e => rfl
            | .inl st =>
              simp only [bind_ok]
              cases api.runSim fp ho false wl' with
              | ok y => cases y <;> rfl
              | _ => rfl
          | _ => rfl
        · simp only [hc, Bool.false_eq_true, if_false]
          cases api.runSim fp ho (decide (api.cfg.congestionModel ≠ "none")) wl' <;> rfl
    | _ => rfl
  | _ => rfl

theorem emitFiles_total {fp : FP} {api : Api} (hd : DeviceOk api.dev)
    (hsmall : api.dev.rows ≤ 32767 ∧ api.dev.cols ≤ 32767) (hpos : 0 < api.cfg.cyclesPerTimestep) {congestion : Bool}
    {ho : HashOrder} (hlinks : ∀ l, (ho.links l).Perm l) {ord : List (Int × List Int) → List (Int × List Int)}
    (hord : ∀ l, (ord l).Perm l) {wl : Workload} (hex : ∀ t ∈ wl.transfers, Executable api.dev t)
    (hreg : ∀ t ∈ wl.transfers, t.groupId ≠ -1 → t.groupIdx ≠ -1 → t.groupId < wl.numTransferGroups)
    (hz : ZonesOk wl) {tc : TimelineConfig} (hth : 0 < tc.threshold)
    (hc : ∃ c, chipsSection api.dev tc.topology = .ok c) {s : Sim} {st : Stats} {rep : Report}
    (h : runSingle fp api.dev ho api.cfg.cyclesPerTimestep congestion wl = .ok (.inl (s, st)))
    (hrep : st.report api.dev wl = .ok rep) :
    ∃ files, emitFiles fp api.cfg api.dev ord tc wl s.ts rep = .ok files := by
  obtain ⟨hids, hts, hrec, ds, hds, hm⟩ := run_written hd hpos (exec_onChips hex) h
  have hR : Registered wl.numTransferGroups s.ts := fun t ht hg => hreg _ (hts t ht).1 hg.1 hg.2
  have hW : ∀ t ∈ s.ts, Writable api.dev t := fun t ht =>
    exec_writable hd hlinks hsmall (hex _ (hts t ht).1) (hts t ht).2
  have hst : ∀ r ∈ ds.steps, r.niuGrid.length ≤ api.dev.niuTable.length ∧
      r.linkGrid.length ≤ api.dev.linkTable.length :=
    fun r hr => ⟨(hrec _ hm r hr).niu, (hrec _ hm r hr).link⟩
  obtain ⟨r, hr, rfl⟩ := report_lookup hrep hds
  have hdoc : ∀ region, ∃ j, documentV1 fp api.cfg api.dev ord tc.topology ⟨wl, s.ts, r.stats, r.summary⟩ region =
      .ok j := by
    intro region
    obtain ⟨c, hc⟩ := hc
    unfold documentV1
    rw [hc, bind_ok]
    cases c with
    | none => exact ⟨_, rfl⟩
    | some c =>
      obtain ⟨tl, htl⟩ := serialize_total (fp := fp) hd hord hids hR hW hst region
      obtain ⟨z, hz⟩ := zonesJson_total hz region
      simp only
      rw [htl, bind_ok, hz, bind_ok]
      exact ⟨_, rfl⟩
  unfold emitFiles
  rw [hr]
  simp only
  by_cases hl : tc.legacy
  · rw [if_pos hl]
    unfold documentV0
    obtain ⟨a, ha⟩ := Out.mapM_total (f := transferV0 api.dev) (l := s.ts) fun t ht => transferV0_total (hW t ht)
    obtain ⟨b, hb⟩ := Out.mapM_total (f := timestepV0 fp api.dev) (l := r.stats.steps) fun x hx => by
      obtain ⟨e, he⟩ := emitTimestep_total (fp := fp) (gs := ⟨[], [], 0⟩) hd (hst x hx).1 (hst x hx).2
      exact timestepV0_total he
    simp only
    rw [ha, bind_ok, hb, bind_ok]
    exact ⟨_, rfl⟩
  · rw [if_neg hl]
    obtain ⟨j, hj⟩ := hdoc none
    obtain ⟨rs, hrs⟩ : ∃ rs, splitRegions r.stats.steps tc.threshold = .ok rs := by
      by_cases hn : tc.threshold < r.stats.steps.length
      · obtain ⟨rs, h, _⟩ := C44_regions r.stats.steps tc.threshold hth hn
        exact ⟨rs, h⟩
      · exact ⟨[], C44_no_split _ _ (by omega)⟩
    obtain ⟨l, hl⟩ := Out.mapM_total (f := fun (e : Nat × Region) =>
      documentV1 fp api.cfg api.dev ord tc.topology ⟨wl, s.ts, r.stats, r.summary⟩ (some e.2) >>= fun j =>
      Out.ok (tc.fileName (tc.splitName e.1), addSplitInfo e.1 rs.length e.2 j))
      (l := (List.range rs.length).zip rs) fun e _ => by
        obtain ⟨j, hj⟩ := hdoc (some e.2)
        exact ⟨_, by rw [hj, bind_ok]⟩
    rw [hj, bind_ok]
    unfold splitFiles
    simp only
    rw [hrs, bind_ok, hl, bind_ok]
    exact ⟨_, rfl⟩

/-- C90, success.  Writing never turns an estimate into a failure if the groups of the workload are registered, its
zones are properly nested, and there is a usable topology (or, for a board with several chips, none): the estimate
with files returns the statistics of the estimate without, and some file is written. -/
theorem C90_partial (fp : FP) (cfg : Config) (api : Api) (hmake : Api.make fp cfg = .ok api)
    (ho : HashOrder) (hlinks : ∀ l, (ho.links l).Perm l)
    (ord : List (Int × List Int) → List (Int × List Int)) (hord : ∀ l, (ord l).Perm l) (wl wl' : Workload)
    (hpre : api.preprocess fp wl = .ok wl') (hex : ∀ t ∈ wl'.transfers, Executable api.dev t)
    (hreg : ∀ t ∈ wl'.transfers, t.groupId ≠ -1 → t.groupIdx ≠ -1 → t.groupId < wl'.numTransferGroups)
    (hz : ZonesOk wl') (tc : TimelineConfig) (hth : 0 < tc.threshold) (hemit : tc.emit = true)
    (hc : ∃ c, chipsSection api.dev tc.topology = .ok c) (rep : Report)
    (h : api.runNPE fp ho wl = .ok (.inl rep)) :
    ∃ files, files ≠ [] ∧ api.runNPEFiles fp ho ord tc wl = .ok (.inl rep, files) := by
  obtain ⟨ecfg, hpos, hdev⟩ := make_ok hmake
  obtain ⟨_, hrows, hcols, _⟩ := factory_rates hdev
  have hd := factory_devices_ok fp _ _ hdev
  have hsim : ∀ en r, api.runSim fp ho en wl' = .ok (.inl r) →
      ∃ files, files ≠ [] ∧ api.runSimFiles fp ho ord tc en wl' = .ok (.inl r, files) := by
    intro en r hr
    unfold Api.runSim at hr
    rw [bind_eq_ok] at hr
    obtain ⟨x, hx, hr⟩ := hr
    match x, hx, hr with
    | .inl (s, st), hx, hr =>
      rw [bind_eq_ok] at hr
      obtain ⟨rp, hrp, hr⟩ := hr
      obtain rfl : rp = r := Sum.inl.inj (Out.ok.inj hr)
      obtain ⟨files, hf⟩ := emitFiles_total (fp := fp) (ho := ho) (ord := ord) (congestion := en) hd ⟨hrows, hcols⟩
        (by rw [ecfg]; exact hpos) hlinks hord hex hreg hz hth hc hx hrp
      refine ⟨files, ?_, ?_⟩
      · rintro rfl
        exact absurd (emit_names hf) nofun
      · unfold Api.runSimFiles
        rw [hx, bind_ok]
        simp only
        rw [hrp, bind_ok, if_pos hemit, hf, bind_ok]
    | .inr e, hx, hr => exact absurd (Out.ok.inj hr) nofun
  unfold Api.runNPE at h
  unfold Api.runNPEFiles
  rw [hpre, bind_ok] at h ⊢
  rw [bind_eq_ok] at h
  obtain ⟨v, hv, h⟩ := h
  rw [hv, bind_ok]
  cases v with
  | false => exact absurd (Out.ok.inj h) nofun
  | true =>
    simp only [if_true] at h ⊢
    have hp : api.runPerf fp ho wl' = .ok (.inl rep) := by
      unfold catchNpe at h
      cases hx : api.runPerf fp ho wl' with
      | exc e => rw [hx] at h; exact absurd (Out.ok.inj h) nofun
      | ok x => rw [hx] at h; exact h
      | _ => rw [hx] at h; exact absurd h nofun
    have hfiles : ∃ files, files ≠ [] ∧ api.runPerfFiles fp ho ord tc wl' = .ok (.inl rep, files) := by
      unfold Api.runPerf at hp
      unfold Api.runPerfFiles
      simp only at hp ⊢
      by_cases hcg : api.cfg.estimateCongImpact
      · simp only [hcg, if_true] at hp ⊢
        rw [bind_eq_ok] at hp
        obtain ⟨x, hx, hp⟩ := hp
        match x, hx, hp with
        | .inr e, hx, hp => exact absurd (Out.ok.inj hp) nofun
        | .inl st, hx, hp =>
          obtain ⟨files, hne, hf⟩ := hsim _ _ hx
          simp only at hp
          rw [bind_eq_ok] at hp
          obtain ⟨y, hy, hp⟩ := hp
          refine ⟨files, hne, ?_⟩
          rw [hf, bind_ok]
          simp only
          rw [runSimFiles_off (tc := { tc with emit := false }) rfl, hy, bind_ok, bind_ok]
          match y, hp with
          | .inr _, hp => rw [← Out.ok.inj hp]
          | .inl _, hp => rw [← Out.ok.inj hp]
      · simp only [hcg, Bool.false_eq_true, if_false] at hp ⊢
        obtain ⟨files, hne, hf⟩ := hsim _ _ hp
        exact ⟨files, hne, by rw [hf, bind_ok]⟩
    obtain ⟨files, hne, hf⟩ := hfiles
    exact ⟨files, hne, by rw [hf]⟩

/-- What C90 asks for without conditions. -/
def C90_claim : Prop := ∀ (fp : FP) (ho : HashOrder) (api : Api) (tc : TimelineConfig) (wl : Workload) (rep : Report),
  api.runNPE fp ho wl = .ok (.inl rep) → ∃ files, api.runNPEFiles fp ho id tc wl = .ok (.inl rep, files)

/-- What is left of a result. -/
inductive Kind where
  | stats (files : Nat)
  | error (e : ErrCode)
  | escapes
  | undefined
  deriving DecidableEq

/-- The kind of a result. -/
def kind : Out (Result × List (List Char × Json)) → Kind
  | .ok (.inl _, f) => .stats f.length
  | .ok (.inr e, _) => .error e
  | .ub => .undefined
  | _ => .escapes

/-- Violated: an estimate that succeeds without a timeline fails with one when local transfers are removed (the number
of groups is forgotten), when a zone ends that was not open, and when the topology file has a text where a
number should be. -/
theorem C90_violated :
    let removing : Api := ⟨{ removeLocal := true }, tall⟩
    let plain : Api := ⟨{}, tall⟩
    let double : Api := ⟨{ deviceName := "N300" }, twoChips⟩
    let stray : Workload := { pair with zones := [((⟨0, 0, 1⟩, .brisc), [⟨0, "a", .zoneEnd⟩])] }
    let bad : InputFile := .doc (.obj [("device_id_to_fabric_node_id", .obj []),
      ("mesh_shapes", .arr [.obj [("shape", .arr [.str "1", .str "2"])]])])
    kind (removing.runNPEFiles .exact ⟨id, id⟩ id { emit := false } pair) = .stats 0 ∧
    kind (removing.runNPEFiles .exact ⟨id, id⟩ id { emit := true } pair) = .error .undef ∧
    kind (plain.runNPEFiles .exact ⟨id, id⟩ id { emit := true } pair) = .stats 1 ∧
    kind (plain.runNPEFiles .exact ⟨id, id⟩ id { emit := false } stray) = .stats 0 ∧
    kind (plain.runNPEFiles .exact ⟨id, id⟩ id { emit := true } stray) = .undefined ∧
    kind (double.runNPEFiles .exact ⟨id, id⟩ id { emit := false } (twoWl [Sample.tr 300 0])) = .stats 0 ∧
    kind (double.runNPEFiles .exact ⟨id, id⟩ id { emit := true, topology := bad } (twoWl [Sample.tr 300 0])) = .escapes := by
  refine ⟨?_, ?_, ?_, ?_, ?_, ?_, ?_⟩ <;> decide +kernel

theorem kind_stats {x : Out (Result × List (List Char × Json))} {n : Nat} (h : kind x = .stats n) :
    ∃ rep f, x = .ok (.inl rep, f) := by
  match x, h with
  | .ok (.inl rep, f), _ => exact ⟨rep, f, rfl⟩

theorem C90_violated_claim : ¬ C90_claim := by
  intro h
  obtain ⟨h1, h2, _⟩ := C90_violated
  obtain ⟨rep, f, hx⟩ := kind_stats h1
  obtain ⟨files, hf⟩ := h .exact ⟨id, id⟩ _ { emit := true } pair rep (C90_same _ _ _ _ _ _ _ _ hx)
  rw [hf] at h2
  exact absurd h2 nofun

end NPE.Props
