import Verif.Model.Pickle
import Verif.Model.Util

/-
The analysis of a directory of traces: py/util/npe_analyze_noc_trace_dir.py.  Citations relative to
/repo/tt_npe.

Simplifications: file names are lists of characters without their directory; `\d` and `\w` match
ASCII characters only; sums and quotients of `float`s are exact (division by zero raises, as in
Python); printing is a list of figures.
-/

namespace NPE.Analyze

/-- `\w`. -/
def isWord (c : Char) : Bool := c.isAlphanum || c = '_'

/-- `int(...)` of a string of digits. -/
def value (l : List Char) : Nat := l.foldl (fun n c => 10 * n + (c.toNat - 48)) 0

/-- Greedy `(\d+)`: in the pattern no digit can follow, so there is nothing to backtrack. -/
def number? (l : List Char) : Option (Nat × List Char) :=
  if l.takeWhile Char.isDigit = [] then none
  else some (value (l.takeWhile Char.isDigit), l.dropWhile Char.isDigit)

/-- Literal characters of the pattern. -/
def literal (p l : List Char) : Option (List Char) :=
  if p.isPrefixOf l then some (l.drop p.length) else none

/-- `\.json$`; `$` also matches before a newline at the end. -/
def ending (l : List Char) : Bool := l = ".json".toList || l = ".json\n".toList

/-- `(_traceID(\d+))?\.json$`. -/
def traceAndEnd (l : List Char) : Option (Option Nat) :=
  match (literal "_traceID".toList l).bind number? with
  | some (n, r) => if ending r then some (some n) else if ending l then some none else none
  | none => if ending l then some none else none

/-- `ID(\d+)(_traceID(\d+))?\.json$`. -/
def idAndEnd (l : List Char) : Option (Nat × Option Nat) :=
  ((literal "ID".toList l).bind number?).bind fun e => (traceAndEnd e.2).map fun t => (e.1, t)

/-- One way to match `(\w*)_` followed by the rest: `k` characters for the name. -/
def withName (l : List Char) (k : Nat) : Option (List Char × Nat × Option Nat) :=
  ((literal "_".toList (l.drop k)).bind idAndEnd).map fun e => (l.take k, e.1, e.2)

/-- Greedy `(\w*)_` with backtracking: at most `k` characters. -/
def withNames (l : List Char) : Nat → Option (List Char × Nat × Option Nat)
  | 0 => withName l 0
  | k + 1 => (withName l (k + 1)).orElse fun _ => withNames l k

/-- Result of `extractDataFromFilename`. -/
structure TraceFile where
  dev : Nat
  opName : List Char
  /-- `program_runtime_id` -/
  pid : Nat
  trace : Option Nat
  deriving DecidableEq

/-- `extractDataFromFilename`, npe_analyze_noc_trace_dir.py:264-274. -/
def extract (name : List Char) : Option TraceFile :=
  (((literal "noc_trace_dev".toList name).bind number?).bind fun e =>
    (literal "_".toList e.2).bind fun l =>
      match withNames l (l.takeWhile isWord).length with
      | some (op, pid, t) => some ⟨e.1, op, pid, t⟩
      | none => (idAndEnd l).map fun r => ⟨e.1, "UnknownOP".toList, r.1, r.2⟩)

/-- `get_device_id`, npe_analyze_noc_trace_dir.py:321-323. -/
def deviceOf (pid : Nat) : Nat := pid &&& 0x3FF

/-- `get_ttnn_op_id`, npe_analyze_noc_trace_dir.py:325-327. -/
def opOf (pid : Nat) : Nat := pid >>> 10

/-- `get_program_runtime_id`, npe_analyze_noc_trace_dir.py:329-331. -/
def runtimeId (op dev : Nat) : Nat := op <<< 10 ||| dev

/-- `OpUID`, npe_analyze_noc_trace_dir.py:126-138. -/
structure OpUID where
  op : Nat
  trace : Option Nat
  deriving DecidableEq

/-- Decimal digits of a number, least significant first. -/
def digitsRev (n : Nat) : List Char :=
  Char.ofNat (48 + n % 10) :: (if n < 10 then [] else digitsRev (n / 10))

/-- A number in an f-string. -/
def decimal (n : Nat) : List Char := (digitsRev n).reverse

/-- `OpUID.__str__`, npe_analyze_noc_trace_dir.py:131-132; the number 0 counts as false. -/
def OpUID.text (u : OpUID) : List Char :=
  "ID".toList ++ decimal u.op ++
    (match u.trace with
     | some (t + 1) => "_traceID".toList ++ decimal (t + 1)
     | _ => [])

/-- Name of the merged trace, npe_analyze_noc_trace_dir.py:410. -/
def mergedName (u : OpUID) : List Char := "noc_trace_".toList ++ u.text ++ "_merged.json".toList

/-- Name of the timeline file, npe_analyze_noc_trace_dir.py:216 and 433. -/
def timelineName (opName : List Char) (u : OpUID) : List Char := opName ++ "_".toList ++ u.text ++ ".npeviz".toList

/-- A group of traces: the name of the operation and the files. -/
structure Group where
  opName : List Char
  files : List (List Char)
  deriving DecidableEq

/-- Adds a file to its group, npe_analyze_noc_trace_dir.py:352-359; a different name is only reported. -/
def addFile (u : OpUID) (opName name : List Char) : List (OpUID × Group) → List (OpUID × Group)
  | [] => [(u, ⟨opName, [name]⟩)]
  | e :: l => if e.1 = u then (u, ⟨e.2.opName, e.2.files ++ [name]⟩) :: l else e :: addFile u opName name l

/-- Body of the loop of `group_traces_ttnn`, npe_analyze_noc_trace_dir.py:338-359; `devices_per_op` serves a message
only. -/
def groupOne (gs : List (OpUID × Group)) (name : List Char) : List (OpUID × Group) :=
  match extract name with
  | none => gs
  | some f => addFile ⟨opOf f.pid, f.trace⟩ f.opName name gs

/-- `group_traces_ttnn`, npe_analyze_noc_trace_dir.py:333-361. -/
def groupTtnn (names : List (List Char)) : List (OpUID × Group) := names.foldl groupOne []

/-- Files per device in `group_traces_metal`. -/
def addToDevice (dev pid : Nat) (name : List Char) :
    List (Nat × List (Nat × List Char)) → List (Nat × List (Nat × List Char))
  | [] => [(dev, [(pid, name)])]
  | e :: l => if e.1 = dev then (dev, e.2 ++ [(pid, name)]) :: l else e :: addToDevice dev pid name l

/-- First loop of `group_traces_metal`, npe_analyze_noc_trace_dir.py:280-292. -/
def metalOne (m : List (Nat × List (Nat × List Char))) (name : List Char) :
    Out (List (Nat × List (Nat × List Char))) :=
  match extract name with
  | none => .ok m
  | some f =>
    if f.opName ≠ "UnknownOP".toList then .std .pyAssertion
    else if f.trace ≠ none then .std .pyAssertion
    else .ok (addToDevice f.dev f.pid name m)

/-- `num_ops`, npe_analyze_noc_trace_dir.py:295-300. -/
def numOps (m : List (Nat × List (Nat × List Char))) : Nat := m.foldl (fun n e => max n e.2.length) 0

/-- `group_traces_metal`, npe_analyze_noc_trace_dir.py:277-319.  The result is a list (line 302), but entries are
stored under an `OpUID` (line 317): the first operation raises a `TypeError`.  Without operations the list is empty. -/
def groupMetal (names : List (List Char)) : Out (List Unit) :=
  Out.foldlM metalOne [] names >>= fun m => if numOps m = 0 then .ok [] else .std .pyType

/-- Grouping as used by `analyze_noc_traces_in_dir`, npe_analyze_noc_trace_dir.py:394-409: `.items()` of the result,
which a list does not have. -/
def groupsFor (metal : Bool) (names : List (List Char)) : Out (List (OpUID × Group)) :=
  if metal then groupMetal names >>= fun _ => .std .pyAttribute else .ok (groupTtnn names)

/-- `Stats.Datapoint`, npe_analyze_noc_trace_dir.py:43-48. -/
structure Datapoint where
  opName : List Char
  uid : OpUID
  dev : Int
  result : PyStats
  deriving DecidableEq

/-- `Stats.datapoints`, npe_analyze_noc_trace_dir.py:50-51. -/
abbrev Datapoints := List ((OpUID × Int) × Datapoint)

/-- `Stats.addDatapoint`, npe_analyze_noc_trace_dir.py:57-58: assignment in a dictionary. -/
def addDatapoint (d : Datapoint) : Datapoints → Datapoints
  | [] => [((d.uid, d.dev), d)]
  | e :: l => if e.1 = (d.uid, d.dev) then (e.1, d) :: l else e :: addDatapoint d l

/-- `combined_trace_id`, npe_analyze_noc_trace_dir.py:61. -/
def combinedTrace (trace : Option Nat) (session : Nat) : Option Nat := trace.map fun t => t <<< 32 ||| session

/-- `Stats.getDatapointByID`, npe_analyze_noc_trace_dir.py:60-63. -/
def getByID (ds : Datapoints) (pid : Nat) (trace : Option Nat) (session : Nat) : Option Datapoint :=
  ds.lookup (⟨opOf pid, combinedTrace trace session⟩, (deviceOf pid : Int))

/-- Result of one worker: `process_trace`, npe_analyze_noc_trace_dir.py:140-150, `none` after a failure. -/
abbrev WorkerResult := Option (List Char × OpUID × List (Int × PyStats))

/-- Body of the loop over results, npe_analyze_noc_trace_dir.py:424-431. -/
def addResult (ds : Datapoints) (r : WorkerResult) : Datapoints :=
  match r with
  | none => ds
  | some (opName, uid, devs) =>
    devs.foldl (fun ds e => if e.1 = -1 then ds else addDatapoint ⟨opName, uid, e.1, e.2⟩ ds) ds

/-- Results of all workers in the order of completion, npe_analyze_noc_trace_dir.py:422-431. -/
def collect (rs : List WorkerResult) : Datapoints := rs.foldl addResult []

/-- Product of a figure and a count. -/
def times (n : Nat) : Dbl → Dbl
  | .num x => .num (x * n)
  | .nan => .nan
  | .inf => if n = 0 then .nan else .inf
  | .ninf => if n = 0 then .nan else .ninf

/-- Quotient by a count; Python raises for zero. -/
def over (x : Dbl) (n : Nat) : Out Dbl :=
  if n = 0 then .std .pyZeroDivision
  else .ok (match x with | .num y => .num (y / n) | y => y)

/-- `sum([...])`. -/
def total (l : List Dbl) : Dbl := l.foldl Dbl.add (.num 0)

/-- `abs`. -/
def Dbl.abs : Dbl → Dbl
  | .num x => .num |x|
  | .ninf => .inf
  | y => y

/-- `Stats.getCycles`, npe_analyze_noc_trace_dir.py:68-69. -/
def cycles (ds : Datapoints) : Nat := (ds.map fun e => e.2.result.goldenCycles).sum

/-- `Stats.getAvgLinkUtil`, npe_analyze_noc_trace_dir.py:71-74. -/
def avgLinkUtil (ds : Datapoints) : Out Dbl := over (total (ds.map fun e => e.2.result.avgLinkUtil)) ds.length

/-- A mean weighted with the golden cycles. -/
def weighted (f : PyStats → Dbl) (ds : Datapoints) : Out Dbl :=
  over (total (ds.map fun e => times e.2.result.goldenCycles (f e.2.result))) (cycles ds)

/-- `Stats.getWeightedAvgLinkUtil`, npe_analyze_noc_trace_dir.py:76-86. -/
def weightedLinkUtil (ds : Datapoints) : Out Dbl := weighted (·.avgLinkUtil) ds

/-- `Stats.getWeightedAvgDramBWUtil`, npe_analyze_noc_trace_dir.py:88-98. -/
def weightedDramUtil (ds : Datapoints) : Out Dbl := weighted (·.dramUtil) ds

/-- `Stats.getWeightedAvgEthBWUtil`, npe_analyze_noc_trace_dir.py:100-110. -/
def weightedEthUtil (ds : Datapoints) : Out Dbl := weighted (·.aggregateEth) ds

/-- `Stats.getAvgError`, npe_analyze_noc_trace_dir.py:112-115. -/
def avgError (ds : Datapoints) : Out Dbl :=
  over (total (ds.map fun e => Dbl.abs e.2.result.cyclePredictionError)) ds.length

/-- Result of `getErrorPercentiles`. -/
structure Percentiles where
  p25 : ℚ
  p50 : ℚ
  p75 : ℚ
  worst : ℚ
  deriving DecidableEq

/-- `list[i]`. -/
def index (l : List ℚ) (i : Nat) : Out ℚ :=
  match l[i]? with
  | some x => .ok x
  | none => .std .pyIndex

/-- `Stats.getErrorPercentiles`, npe_analyze_noc_trace_dir.py:116-124, for errors that are numbers; the products with
0.25 and 0.75 are exact for fewer than 2^51 values. -/
def percentiles (errors : List ℚ) : Out Percentiles :=
  let s := sortBy (fun a b => decide (a ≤ b)) (errors.map fun x => |x|)
  index s (s.length / 4) >>= fun a =>
  index s (s.length / 2) >>= fun b =>
  index s (s.length * 3 / 4) >>= fun c =>
  (if s = [] then .std .pyIndex else index s (s.length - 1)) >>= fun d =>
  .ok ⟨a, b, c, d⟩

/-- Sort key `1.0/dp.result.golden_cycles`. -/
def sortKey (fp : FP) (e : Datapoint) : Out ℚ :=
  if e.result.goldenCycles = 0 then .std .pyZeroDivision else .ok (fp.f64.fl (1 / e.result.goldenCycles))

/-- `Stats.getSortedEvents`, npe_analyze_noc_trace_dir.py:65-66. -/
def sortedEvents (fp : FP) (ds : Datapoints) : Out (List Datapoint) :=
  Out.mapM (fun (e : (OpUID × Int) × Datapoint) => sortKey fp e.2 >>= fun k => .ok (k, e.2)) ds >>= fun l =>
  .ok ((sortBy (fun (a b : ℚ × Datapoint) => decide (a.1 ≤ b.1)) l).map (·.2))

/-- A row of the table: the datapoint and its share of all cycles in percent, npe_analyze_noc_trace_dir.py:241-250. -/
def tableRow (ds : Datapoints) (d : Datapoint) : Out (Datapoint × Dbl) :=
  over (.num d.result.goldenCycles) (cycles ds) >>= fun x => .ok (d, x.scale 100)

/-- The printed table: the first rows and the figures below. -/
structure Table where
  rows : List (Datapoint × Dbl)
  avgLink : Dbl
  link : Dbl
  dram : Dbl
  eth : Dbl

/-- `print_stats_summary_table` without accuracy figures, npe_analyze_noc_trace_dir.py:232-262. -/
def summaryTable (fp : FP) (ds : Datapoints) (maxDisplay : Nat) : Out Table :=
  sortedEvents fp ds >>= fun evs =>
  Out.mapM (tableRow ds) (evs.take maxDisplay) >>= fun rows =>
  avgLinkUtil ds >>= fun a =>
  weightedLinkUtil ds >>= fun b =>
  weightedDramUtil ds >>= fun c =>
  weightedEthUtil ds >>= fun d =>
  .ok ⟨rows, a, b, c, d⟩

end NPE.Analyze
