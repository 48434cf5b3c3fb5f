import Verif.Props.CommandLine
import Verif.Props.Document

/-
The options of the command line that README.md describes (lines 130-152).

* `C165_workload`: "the `-w` argument is required": without it the program ends with status 1, whatever else is asked for.
* `C165_timeline`: "`-e` dumps the timeline into a JSON file located at `npe_timeline.json` (by default)": without `-e` no
  files are written; with it, and unless another name or compression is asked for, the first file has this name, and the
  parts of a long timeline have names that begin with it.
* `C165_model`: "congestion is modelled by default, and can be disabled using `--cong-model none`": the statistics come
  from a simulation with congestion exactly if the last request for a model is not `none`.
-/

namespace NPE.Props

open NPE.Cli NPE.Spec.CommandLine

theorem lastOr_none {α : Type} {f : Request → Option α} {rs : List Request} (h : ∀ r ∈ rs, f r = none) (d : α) :
    lastOr f rs d = d := by
  unfold lastOr
  rw [List.filterMap_eq_nil_iff.2 h]
  rfl

theorem lastOr_prop {α : Type} {f : Request → Option α} {rs : List Request} {P : α → Prop} {d : α} (hd : P d)
    (h : ∀ r ∈ rs, ∀ a, f r = some a → P a) : P (lastOr f rs d) := by
  unfold lastOr
  cases hl : (rs.filterMap f).getLast? with
  | none => exact hd
  | some a =>
    obtain ⟨r, hr, ha⟩ := List.mem_filterMap.1 (List.mem_of_getLast? hl)
    exact h r hr a ha

/-- What is asked for is among the choices. -/
theorem spelled_choices {k : Conv} {rs : List (Request × List String)} (h : ∀ e ∈ rs, Spelled k e.1 e.2) {p : Parsed}
    (m : Meant (rs.map (·.1)) p) : p.args.device ∈ devices ∧ p.args.congModel ∈ models := by
  have hd : ∀ s, Request.device s ∈ rs.map (·.1) → s ∈ devices := by
    intro s hs
    obtain ⟨e, he, hes⟩ := List.mem_map.1 hs
    obtain ⟨r, ws⟩ := e
    have : Spelled k r ws := h _ he
    simp only at hes
    subst hes
    cases this with
    | bare _ hb => exact hb.elim
    | apart _ ht _ => exact ht.2
    | joined _ ht => exact ht.2
    | glued _ _ ht _ _ => exact ht.2
  have hm : ∀ s, Request.congModel s ∈ rs.map (·.1) → s ∈ models := by
    intro s hs
    obtain ⟨e, he, hes⟩ := List.mem_map.1 hs
    obtain ⟨r, ws⟩ := e
    have : Spelled k r ws := h _ he
    simp only at hes
    subst hes
    cases this with
    | bare _ hb => exact hb.elim
    | apart _ ht _ => exact ht.2
    | joined _ ht => exact ht.2
    | glued _ _ ht _ _ => exact ht.2
  rw [m.device, m.congModel]
  constructor
  · refine lastOr_prop (by decide) fun r hr a ha => ?_
    cases r <;> simp only [Option.some.injEq, reduceCtorEq] at ha
    subst ha
    exact hd _ hr
  · refine lastOr_prop (by decide) fun r hr a ha => ?_
    cases r <;> simp only [Option.some.injEq, reduceCtorEq] at ha
    subst ha
    exact hm _ hr

/-- Property C165, first part: without a workload the program fails. -/
theorem C165_workload (fp : FP) (ho : HashOrder) (ord : List (Int × List Int) → List (Int × List Int)) (k : Conv)
    (files : String → InputFile) (answer : Bool) (rs : List (Request × List String)) (h : ∀ e ∈ rs, Spelled k e.1 e.2)
    (hw : ∀ e ∈ rs, ∀ s, e.1 = .workload s → s = "") :
    ∃ o, program fp ho ord k files answer (rs.flatMap (·.2)) = some o ∧ exitStatus o = .ok 1 := by
  obtain ⟨p, e, m⟩ := C162_reads k rs h
  obtain ⟨hd, hm⟩ := spelled_choices h m
  have hwl : p.args.workload = "" := by
    rw [m.workload]
    refine lastOr_prop (P := fun s => s = "") rfl fun r hr a ha => ?_
    cases r <;> simp only [Option.some.injEq, reduceCtorEq] at ha
    subst ha
    obtain ⟨x, hx, hxs⟩ := List.mem_map.1 hr
    exact hw x hx _ hxs
  unfold program
  rw [e]
  refine ⟨_, rfl, ?_⟩
  unfold main
  rw [if_neg (by simp [hd, hm])]
  unfold Args.config
  split
  · rfl
  · rfl

/-- The name of the first file. -/
theorem emitFiles_first {fp : FP} {cfg : Config} {dev : Device} {ord : List (Int × List Int) → List (Int × List Int)}
    {tc : TimelineConfig} {wl : Workload} {ts : List TState} {rep : Report} {files : List (List Char × Json)}
    (h : emitFiles fp cfg dev ord tc wl ts rep = .ok files) :
    ∃ j l, files = (tc.fileName tc.base, j) :: l ∧ (tc.legacy = true → l = []) ∧
      ∀ f ∈ l, ∃ i, f.1 = tc.fileName (tc.splitName i) := by
  unfold emitFiles at h
  split at h
  · cases h
  · split at h
    · obtain ⟨j, _, h⟩ := Out.bind_eq_ok.mp h
      cases h
      exact ⟨j, [], rfl, fun _ => rfl, nofun⟩
    · rename_i hl
      obtain ⟨j, _, h⟩ := Out.bind_eq_ok.mp h
      obtain ⟨l, h2, h⟩ := Out.bind_eq_ok.mp h
      cases h
      refine ⟨j, l, rfl, fun h => absurd h hl, fun f hf => ?_⟩
      unfold splitFiles at h2
      obtain ⟨regions, _, h2⟩ := Out.bind_eq_ok.mp h2
      obtain ⟨e, _, he⟩ := (mapM_mem h2 f).1 hf
      obtain ⟨j', _, he⟩ := Out.bind_eq_ok.mp he
      cases he
      exact ⟨_, rfl⟩

theorem runSimFiles_first {fp : FP} {ho : HashOrder} {ord : List (Int × List Int) → List (Int × List Int)} {api : Api}
    {tc : TimelineConfig} {congestion : Bool} {wl : Workload} {r : Report} {files : List (List Char × Json)}
    (ht : tc.emit = true) (h : api.runSimFiles fp ho ord tc congestion wl = .ok (.inl r, files)) :
    ∃ j l, files = (tc.fileName tc.base, j) :: l ∧ (tc.legacy = true → l = []) ∧
      ∀ f ∈ l, ∃ i, f.1 = tc.fileName (tc.splitName i) := by
  unfold Api.runSimFiles at h
  obtain ⟨x, h1, h⟩ := Out.bind_eq_ok.mp h
  match x, h1, h with
  | .inl (s, st), h1, h =>
    obtain ⟨rep, h2, h⟩ := Out.bind_eq_ok.mp h
    rw [if_pos ht] at h
    obtain ⟨fs, hf, h⟩ := Out.bind_eq_ok.mp h
    cases h
    exact emitFiles_first hf
  | .inr e, _, h => cases h

theorem runNPEFiles_first {fp : FP} {ho : HashOrder} {ord : List (Int × List Int) → List (Int × List Int)} {api : Api}
    {tc : TimelineConfig} {wl : Workload} {r : Report} {files : List (List Char × Json)}
    (ht : tc.emit = true) (h : api.runNPEFiles fp ho ord tc wl = .ok (.inl r, files)) :
    ∃ j l, files = (tc.fileName tc.base, j) :: l ∧ (tc.legacy = true → l = []) ∧
      ∀ f ∈ l, ∃ i, f.1 = tc.fileName (tc.splitName i) := by
  unfold Api.runNPEFiles at h
  obtain ⟨w, _, h⟩ := Out.bind_eq_ok.mp h
  obtain ⟨v, _, h⟩ := Out.bind_eq_ok.mp h
  by_cases hv : v = true
  · rw [if_pos hv] at h
    split at h
    · cases h
    · unfold Api.runPerfFiles at h
      simp only at h
      obtain ⟨⟨x, fs⟩, h1, h⟩ := Out.bind_eq_ok.mp h
      by_cases hc : api.cfg.estimateCongImpact = true
      · rw [if_pos hc] at h
        match x, h1, h with
        | .inr e, _, h => cases h
        | .inl st, h1, h =>
          obtain ⟨⟨y, gs⟩, h2, h⟩ := Out.bind_eq_ok.mp h
          match y, h2, h with
          | .inr _, _, h => cases h; exact runSimFiles_first ht h1
          | .inl _, _, h => cases h; exact runSimFiles_first ht h1
      · rw [if_neg hc] at h
        cases h
        exact runSimFiles_first ht h1
  · rw [if_neg hv] at h
    cases h

/-- Property C165, second part: the timeline. -/
theorem C165_timeline (fp : FP) (ho : HashOrder) (ord : List (Int × List Int) → List (Int × List Int)) (k : Conv)
    (rs : List (Request × List String)) (h : ∀ e ∈ rs, Spelled k e.1 e.2) :
    ∃ p, parseArgs k (rs.flatMap (·.2)) = .ok p ∧
      ∀ (w : World) (api : Api) (wl : Workload) (rep : Report) (files : List (List Char × Json)),
        api.runNPEFiles fp ho ord (p.args.timeline w) wl = .ok (.inl rep, files) →
        (.emit ∉ rs.map (·.1) → files = []) ∧
        (.emit ∈ rs.map (·.1) → (∀ s, .timelinePath s ∉ rs.map (·.1)) → .compress ∉ rs.map (·.1) →
          ∃ j l, files = ("npe_timeline.json".toList, j) :: l ∧ (.legacy ∈ rs.map (·.1) → l = []) ∧
            ∀ f ∈ l, "npe_timeline.json".toList <+: f.1) := by
  obtain ⟨p, e, m⟩ := C162_reads k rs h
  refine ⟨p, e, fun w api wl rep files hr => ⟨fun he => ?_, fun he hp hc => ?_⟩⟩
  · have hoff : (p.args.timeline w).emit = false := by
      have := mt m.emit.1 he
      simpa [Args.timeline] using this
    rw [C90_off fp ho ord api _ wl hoff] at hr
    obtain ⟨x, _, hr⟩ := Out.bind_eq_ok.mp hr
    cases hr
    rfl
  · have hon : (p.args.timeline w).emit = true := m.emit.2 he
    have hpath : p.args.timelinePath = "npe_timeline.json" := by
      rw [m.timelinePath]
      refine lastOr_none (fun r hr => ?_) _
      cases r <;> first | rfl | exact absurd hr (hp _)
    have hcomp : p.args.compress = false := by simpa using mt m.compress.1 hc
    obtain ⟨j, l, hf, hl, hs⟩ := runNPEFiles_first hon hr
    have hbase : (p.args.timeline w).base = "npe_timeline.json".toList := by
      unfold TimelineConfig.base Args.timeline
      simp only [hpath]
      rw [if_neg (by decide +kernel)]
    have hname : ∀ x, (p.args.timeline w).fileName x = x := by
      intro x
      unfold TimelineConfig.fileName Args.timeline
      simp [hcomp]
    refine ⟨j, l, ?_, fun hg => hl (m.legacy.2 hg), fun f hfl => ?_⟩
    · rw [hf, hname, hbase]
    · obtain ⟨i, hi⟩ := hs f hfl
      rw [hi, hname]
      unfold TimelineConfig.splitName
      rw [hbase]
      have : beforeFirst ".npeviz".toList "npe_timeline.json".toList = "npe_timeline.json".toList := by decide +kernel
      rw [this, List.append_assoc, List.append_assoc]
      exact List.prefix_append _ _

/-- Property C165, third part: the model of congestion. -/
theorem C165_model (fp : FP) (ho : HashOrder) (k : Conv) (rs : List (Request × List String))
    (h : ∀ e ∈ rs, Spelled k e.1 e.2) :
    ∃ p, parseArgs k (rs.flatMap (·.2)) = .ok p ∧
      ∀ (api : Api) (wl : Workload) (rep : Report), p.args.config = .ok api.cfg →
        api.runPerf fp ho wl = .ok (.inl rep) →
        ∃ rep', (rep = rep' ∨ rep = setCongFree rep') ∧
          api.runSim fp ho (decide ((rs.filterMap fun e => match e.1 with | .congModel s => some s | _ => none).getLast? ≠
            some "none")) wl = .ok (.inl rep') := by
  obtain ⟨p, e, m⟩ := C162_reads k rs h
  refine ⟨p, e, fun api wl rep hcfg hr => ?_⟩
  have hm : api.cfg.congestionModel = p.args.congModel := by
    unfold Args.config at hcfg
    split at hcfg
    · rw [← Out.ok.inj hcfg]
    · cases hcfg
  have hb : decide (api.cfg.congestionModel ≠ "none") =
      decide ((rs.filterMap fun e => match e.1 with | .congModel s => some s | _ => none).getLast? ≠ some "none") := by
    have hl : p.args.congModel =
        (rs.filterMap fun e => match e.1 with | .congModel s => some s | _ => none).getLast?.getD "fast" := by
      rw [m.congModel]
      unfold lastOr
      rw [List.filterMap_map]
      rfl
    rw [hm, hl, decide_eq_decide]
    cases (rs.filterMap fun e => match e.1 with | .congModel s => some s | _ => none).getLast? <;> simp
  rw [← hb]
  unfold Api.runPerf at hr
  simp only at hr
  split at hr
  · obtain ⟨x, h1, hr⟩ := Out.bind_eq_ok.mp hr
    rw [h1]
    match x, h1, hr with
    | .inr _, _, hr => cases hr
    | .inl st, h1, hr =>
      obtain ⟨y, h2, hr⟩ := Out.bind_eq_ok.mp hr
      match y, hr with
      | .inr _, hr => cases hr; exact ⟨_, .inl rfl, rfl⟩
      | .inl _, hr => cases hr; exact ⟨_, .inr rfl, rfl⟩
  · exact ⟨_, .inl rfl, hr⟩

/-- Words with a timeline and a model, but without a workload. -/
example (fp : FP) (ho : HashOrder) (ord : List (Int × List Int) → List (Int × List Int)) (files : String → InputFile) :
    ∃ o, program fp ho ord digits files false ["-e", "--cong-model", "none"] = some o ∧ exitStatus o = .ok 1 :=
  C165_workload fp ho ord digits files false [(.emit, ["-e"]), (.congModel "none", ["--cong-model", "none"])]
    (by
      intro e he
      simp only [List.mem_cons, List.not_mem_nil, or_false] at he
      obtain rfl | rfl := he
      · exact .bare (.full (by simp [Request.names])) trivial
      · exact .apart (.full (by simp [Request.names])) ⟨rfl, by simp⟩ (.plain (by decide +kernel)))
    (by simp)

/-- The names of the files of a run with the default name and a small threshold. -/
example : (match sampleFiles zoned { path := "npe_timeline.json".toList, threshold := 3 } with
    | some (.ok (_, f)) => f.map fun e => String.ofList e.1
    | _ => []) = ["npe_timeline.json", "npe_timeline.json_split_0.npeviz", "npe_timeline.json_split_1.npeviz",
      "npe_timeline.json_split_2.npeviz"] := by
  decide +kernel

end NPE.Props
