import Verif.Model.Cli

/-
The estimates of the analysis script for the operations of a directory and the manifest of their timeline files:
`run_npe`, `process_trace` and the end of `analyze_noc_traces_in_dir`,
py/util/npe_analyze_noc_trace_dir.py:140-150, 201-229 and 413-441.  Citations relative to /repo/tt_npe.

Simplifications: jobs are listed in the order in which they are completed (`imap_unordered`); every job comes with the
merged file, the measured time and the orders of hash maps that its run meets; the manifest is the list of its entries;
files that a run writes before it fails are not kept; joining paths puts one `/` between them.
-/

namespace NPE.Analyze

/-- The options that matter here, npe_analyze_noc_trace_dir.py:151-198. -/
structure Options where
  emit : Bool := false
  compress : Bool := false
  threshold : Int := 10000

/-- What all jobs have in common: the name of the device (`cluster_type`, line 405), the topology file (line 403), the
directory of the traces and the one for the results (lines 382-384). -/
structure Setting where
  device : String
  topology : InputFile
  dir : List Char
  outDir : List Char

/-- An operation with its merged trace, npe_analyze_noc_trace_dir.py:408-414. -/
structure Job where
  opName : List Char
  uid : OpUID
  trace : InputFile
  wall : Nat := 0
  ho : HashOrder
  ord : List (Int × List Int) → List (Int × List Int) := id

/-- `os.path.join(output_dir, f"{opname}_{str(op_uid)}.npeviz")`, npe_analyze_noc_trace_dir.py:216. -/
def Setting.path (s : Setting) (name : List Char) : List Char := s.outDir ++ '/' :: name

/-- Path of the merged trace, npe_analyze_noc_trace_dir.py:410. -/
def Setting.merged (s : Setting) (u : OpUID) : List Char := s.dir ++ '/' :: mergedName u

/-- The timeline options of a job, npe_analyze_noc_trace_dir.py:204-219; pybind11 refuses a threshold that is not a
`size_t`. -/
def Options.timeline (o : Options) (s : Setting) (j : Job) : Out TimelineConfig :=
  if 0 ≤ o.threshold ∧ o.threshold < 18446744073709551616 then
    .ok { emit := o.emit, path := if o.emit then s.path (timelineName j.opName j.uid) else [],
          workloadJson := s.merged j.uid, compress := o.compress, topology := s.topology,
          threshold := o.threshold.toNat }
  else .std .pyType

/-- The other options of a job, npe_analyze_noc_trace_dir.py:204-219. -/
def jobConfig (device : String) : Config := { deviceName := device, cyclesPerTimestep := 32 }

/-- `run_npe`, npe_analyze_noc_trace_dir.py:201-229. -/
def runNpe (fp : FP) (o : Options) (s : Setting) (j : Job) : Out (Result × List (List Char × Json)) :=
  o.timeline s j >>= fun tc =>
  createWorkload fp false (String.ofList (s.merged j.uid)) s.device true j.trace >>= fun wl =>
    match wl with
    | none => .std .runtimeError
    | some wl => Cli.initApi fp (jobConfig s.device) >>= fun api =>
      match api with
      | none => .std .runtimeError
      | some api => api.runNPEFiles fp j.ho j.ord tc wl

/-- `process_trace`, npe_analyze_noc_trace_dir.py:140-150, with the files written.  A process that ends takes the job
with it, and the pool waits for its result forever. -/
def work (fp : FP) (o : Options) (s : Setting) (j : Job) : Out (WorkerResult × List (List Char × Json)) :=
  match runNpe fp o s j with
  | .ok (.inl r, files) => .ok (some (j.opName, j.uid, r.map fun e => (e.1, e.2.visible j.wall)), files)
  | .ok (.inr _, files) => .ok (none, files)
  | .exc _ => .ok (none, [])
  | .std _ => .ok (none, [])
  | .exit => .diverge
  | .ub => .ub
  | .diverge => .diverge

/-- An entry of the manifest. -/
structure Entry where
  /-- `global_call_count` -/
  count : Nat
  file : List Char
  deriving DecidableEq

/-- npe_analyze_noc_trace_dir.py:432-434, without the option for metal traces (which fails earlier, see `groupMetal`). -/
def entryOf (o : Options) (r : WorkerResult) : Option Entry :=
  r.map fun e => ⟨runtimeId e.2.1.op 0, timelineName e.1 e.2.1 ++ if o.compress then ".zst".toList else []⟩

/-- What the analysis leaves behind. -/
structure Analysis where
  points : Datapoints
  manifest : List Entry
  files : List (List Char × Json)

/-- The loop over the results and the manifest, npe_analyze_noc_trace_dir.py:416-441.  The manifest is written only with
timelines. -/
def analyzeJobs (fp : FP) (o : Options) (s : Setting) (jobs : List Job) : Out Analysis :=
  Out.mapM (work fp o s) jobs >>= fun rs =>
  .ok ⟨collect (rs.map (·.1)), if o.emit then (rs.map (·.1)).filterMap (entryOf o) else [], (rs.map (·.2)).flatten⟩

end NPE.Analyze
