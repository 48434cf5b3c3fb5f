import Verif.Proofs.OrderOutput
import Verif.Props.Fluid
import Verif.Props.Mcast
import Verif.Proofs.Later

/-
Property C146: the order in which the table of issue queues is iterated has no influence on anything.
-/

namespace NPE.Props
open NPE NPE.Spec NPE.Spec.Fluid

/-- Two orders of hash containers that may be different as far as issue queues are concerned, and for sets of links if
there are no multicasts. -/
def QueueOrders (ho ho' : HashOrder) (wl : Workload) : Prop :=
  (∀ l, (ho.buckets l).Perm l) ∧ (∀ l, (ho'.buckets l).Perm l) ∧
  (ho'.links = ho.links ∨ ∀ t ∈ wl.transfers, ∃ d, t.dst = .unicast d)

theorem QueueOrders.preprocessed {ho ho' : HashOrder} {wl wl' : Workload} (h : QueueOrders ho ho' wl) {fp : FP} {api : Api}
    (hp : api.preprocess fp wl = .ok wl') : QueueOrders ho ho' wl' := by
  refine ⟨h.1, h.2.1, h.2.2.imp_right fun hu t ht => ?_⟩
  obtain ⟨u, hu', e⟩ := preprocess_back hp t ht
  obtain ⟨d, hd⟩ := hu u hu'
  have e' : (still t).dst = (still u).dst := by rw [e]
  exact ⟨d, by rw [← hd]; exact e'⟩

/-- C146.  Whatever a run returns, statistics, error, uncaught exception or undefined behaviour, it returns in both
orders: for every device, workload, configuration and rounding. -/
theorem C146 (fp : FP) (api : Api) (ho ho' : HashOrder) (wl : Workload) (h : QueueOrders ho ho' wl) :
    api.runNPE fp ho wl = api.runNPE fp ho' wl := by
  unfold Api.runNPE
  refine Concur.toEq (.same _ fun wl' hp => .same _ fun v _ => ?_)
  have h' := h.preprocessed hp
  have e : api.runPerf fp ho wl' = api.runPerf fp ho' wl' := by
    unfold Api.runPerf
    simp only [fun en => runSim_order fp api en h'.1 h'.2.1 h'.2.2]
  rw [e]
  exact .rfl' _

/-- The same, together with the timelines. -/
theorem C146_files (fp : FP) (api : Api) (ho ho' : HashOrder) (wl : Workload) (h : QueueOrders ho ho' wl)
    (ord : List (Int × List Int) → List (Int × List Int)) (tc : TimelineConfig) :
    api.runNPEFiles fp ho ord tc wl = api.runNPEFiles fp ho' ord tc wl := by
  unfold Api.runNPEFiles
  refine Concur.toEq (.same _ fun wl' hp => .same _ fun v _ => ?_)
  have h' := h.preprocessed hp
  have e : api.runPerfFiles fp ho ord tc wl' = api.runPerfFiles fp ho' ord tc wl' := by
    unfold Api.runPerfFiles
    simp only [fun tc en => runSimFiles_order fp api ord tc en h'.1 h'.2.1 h'.2.2]
  rw [e]
  exact .rfl' _

/-- The same, for what is written to the disk. -/
theorem C146_disk (fp : FP) (api : Api) (ho ho' : HashOrder) (wl : Workload) (h : QueueOrders ho ho' wl)
    (ord : List (Int × List Int) → List (Int × List Int)) (tc : TimelineConfig) (lib : Library) (os : Os) (d : Disk) :
    api.runNPEDisk fp ho ord tc lib os wl d = api.runNPEDisk fp ho' ord tc lib os wl d := by
  unfold Api.runNPEDisk
  rw [C146_files fp api ho ho' wl h]

/-- The same, for the command line program. -/
theorem C146_program (fp : FP) (links : List Int → List Int) (b b' : List BucketKey → List BucketKey)
    (hb : ∀ l, (b l).Perm l) (hb' : ∀ l, (b' l).Perm l)
    (ord : List (Int × List Int) → List (Int × List Int)) (w : Cli.World) (a : Cli.Args) :
    Cli.main fp ⟨links, b⟩ ord w a = Cli.main fp ⟨links, b'⟩ ord w a := by
  unfold Cli.main Cli.simulate
  simp only [fun (api : Api) wl tc => C146_files fp api ⟨links, b⟩ ⟨links, b'⟩ wl ⟨hb, hb', Or.inl rfl⟩ ord tc]

/-- The same, for the analysis of a directory: each job may see its own order. -/
theorem C146_analysis (fp : FP) (o : Analyze.Options) (s : Analyze.Setting) (jobs : List Analyze.Job)
    (change : Analyze.Job → List BucketKey → List BucketKey) (hb : ∀ j ∈ jobs, ∀ l, (j.ho.buckets l).Perm l)
    (hc : ∀ j ∈ jobs, ∀ l, (change j l).Perm l) :
    Analyze.analyzeJobs fp o s (jobs.map fun j => { j with ho := ⟨j.ho.links, change j⟩ }) =
      Analyze.analyzeJobs fp o s jobs := by
  unfold Analyze.analyzeJobs
  rw [mapM_map']
  congr 1
  refine mapM_congr_mem fun j hj => ?_
  have e : Analyze.runNpe fp o s { j with ho := ⟨j.ho.links, change j⟩ } = Analyze.runNpe fp o s j := by
    unfold Analyze.runNpe
    simp only [fun (api : Api) wl tc => C146_files fp api ⟨j.ho.links, change j⟩ j.ho wl
      ⟨hc j hj, hb j hj, Or.inl rfl⟩ j.ord tc]
    rfl
  unfold Analyze.work
  rw [e]

/-- Estimates for the chips and the mesh. -/
def estimatesOf (ho : HashOrder) (ts : List Transfer) : Option (List (Int × Nat)) :=
  let wl := (Workload.addPhase {} { transfers := ts }).setGoldenResultCycles [(0, (0, 1000)), (MESH_DEVICE, (0, 1000))]
  match runSingle .exact Sample.dev ho 128 true wl with
  | .ok (.inl (_, st)) => some (st.map fun e => (e.1, e.2.estimated))
  | _ => none

/-- C146 is violated for the order of sets of links if there are multicasts: even the estimate is another one. -/
theorem C146_violated :
    estimatesOf ⟨id, id⟩ queueMix ≠ estimatesOf ⟨fun l => l.drop 1 ++ l.take 1, id⟩ queueMix := by
  decide +kernel

/-- Two queues of three transfers.  In the other order the checkpoints have other numbers, and the estimates, which
depend on the waiting transfers, are the same. -/
example :
    (let wl := (Workload.addPhase {} { transfers := [east, south, east, south, east, south] }).setGoldenResultCycles
        [(0, (0, 1000)), (MESH_DEVICE, (0, 1000))]
     (initSim .exact Sample.dev ⟨id, id⟩ wl >>= fun s => .ok (s.ts.map (·.dependsOn))) = .ok [-1, -1, -1, -1, 0, 1] ∧
     (initSim .exact Sample.dev ⟨id, List.reverse⟩ wl >>= fun s => .ok (s.ts.map (·.dependsOn))) =
        .ok [-1, -1, -1, -1, 1, 0]) ∧
    estimatesOf ⟨id, id⟩ [east, south, east, south, east, south] =
      estimatesOf ⟨id, List.reverse⟩ [east, south, east, south, east, south] := by decide +kernel

end NPE.Props
