import Verif.Model.Analyze
import Verif.Model.Text

/-
The text of the summary table of the analysis script: `print_stats_summary_table`,
py/util/npe_analyze_noc_trace_dir.py:232-262.  Citations relative to /repo/tt_npe.

Simplifications: a text is the list of its lines; only the lines of a run that ends without an exception; without the
accuracy figures (lines 254-258); the sign of a NaN and of a zero is not modelled; which decimal is taken for a number in
the middle between two is a parameter.
-/

namespace NPE.Analyze
open NPE.Text (right figure ethPerCore)

/-- A text in a field of at least `n` places, to the left: `{:42}` of a string. -/
def left (n : Nat) (cs : List Char) : List Char := cs ++ List.replicate (n - cs.length) ' '

/-- `{:.2f}` of a nonnegative number of hundredths. -/
def hundredths (t : Nat) : List Char :=
  Nat.toDigits 10 (t / 100) ++ ['.', Nat.digitChar (t % 100 / 10), Nat.digitChar (t % 10)]

/-- `{:.2f}` of a `float`.  `nh` is the number of hundredths of a nonnegative number, to the nearest one. -/
def figure2 (nh : ℚ → Nat) : Dbl → List Char
  | .num x => if x < 0 then '-' :: hundredths (nh (-x)) else hundredths (nh x)
  | .nan => "nan".toList
  | .inf => "inf".toList
  | .ninf => "-inf".toList

/-- A figure in percent in a column of `n` places and the sign. -/
def column (nh : ℚ → Nat) (n : Nat) (x : Dbl) : List Char := right n (figure2 nh x) ++ ['%']

/-- `getCongestionImpact()`, cpp/src/npeStats.cpp:878-885, of an object in Python. -/
def impact (r : PyStats) : ℚ :=
  if r.estimatedCycles = 0 ∨ r.estimatedCongFreeCycles = 0 then 0
  else 100 * ((r.estimatedCycles : ℚ) - r.estimatedCongFreeCycles) / r.estimatedCycles

/-- `metal_trace_id_str`, npe_analyze_noc_trace_dir.py:248. -/
def traceText : Option Nat → List Char
  | none => []
  | some t => Nat.toDigits 10 t

/-- A row, npe_analyze_noc_trace_dir.py:249-251. -/
def rowText (nh nt : ℚ → Nat) (d : Datapoint) (share : Dbl) : List Char :=
  left 42 d.opName ++ ' ' :: right 5 (Nat.toDigits 10 d.uid.op) ++ ' ' :: right 15 (traceText d.uid.trace) ++
    ' ' :: column nh 13 d.result.avgLinkUtil ++ ' ' :: column nh 17 d.result.avgMcastUtil ++
    ' ' :: column nh 13 d.result.dramUtil ++ ' ' :: column nh 13 (.num (impact d.result)) ++
    ' ' :: column nh 18 share ++ ' ' :: ' ' :: ethPerCore nt d.result.ethUtil

/-- npe_analyze_noc_trace_dir.py:245. -/
def omittedText (n : Int) : List Char :=
  "... ".toList ++ Format.int n ++ " operations omitted; use -m $NUM_ROWS to display more".toList

/-- The loop over the events, npe_analyze_noc_trace_dir.py:242-251; `all` is the number of events. -/
def rowTexts (nh nt : ℚ → Nat) (ds : Datapoints) (maxDisplay : Int) (all : Nat) : Nat → List Datapoint →
    Out (List (List Char))
  | _, [] => .ok []
  | i, d :: l =>
    if maxDisplay ≤ i then .ok [omittedText (all - maxDisplay)]
    else
      tableRow ds d >>= fun r =>
      rowTexts nh nt ds maxDisplay all (i + 1) l >>= fun ls =>
      .ok (rowText nh nt d r.2 :: ls)

/-- The lines between the parts, npe_analyze_noc_trace_dir.py:234, 238 and 253. -/
def separator : List Char := List.replicate 173 '-'

/-- The heading, npe_analyze_noc_trace_dir.py:235-237, with the escape sequences for bold letters (lines 23-24). -/
def heading : List Char :=
  "\x1b[1m".toList ++ left 42 "Opname".toList ++ ' ' :: right 5 "Op ID".toList ++ ' ' :: right 15 "Metal Trace ID".toList ++
    ' ' :: right 14 "NoC Util".toList ++ ' ' :: right 18 "McastWr NoC Util".toList ++
    ' ' :: right 14 "DRAM BW Util".toList ++ ' ' :: right 14 "Cong Impact".toList ++
    ' ' :: right 19 "% Overall Cycles".toList ++ ' ' :: "ETH BW Util (per core)".toList ++ "\x1b[0m".toList

/-- A line below the table, npe_analyze_noc_trace_dir.py:259-262. -/
def meanText (nt : ℚ → Nat) (label : String) (x : Dbl) : List Char := label.toList ++ figure nt x ++ ['%', ' ']

/-- `print_stats_summary_table` without accuracy figures, npe_analyze_noc_trace_dir.py:232-262. -/
def tableText (fp : FP) (nh nt : ℚ → Nat) (ds : Datapoints) (maxDisplay : Int) : Out (List (List Char)) :=
  sortedEvents fp ds >>= fun evs =>
  rowTexts nh nt ds maxDisplay evs.length 0 evs >>= fun rows =>
  avgLinkUtil ds >>= fun a =>
  weightedLinkUtil ds >>= fun b =>
  weightedDramUtil ds >>= fun c =>
  weightedEthUtil ds >>= fun d =>
  .ok (separator :: heading :: separator :: (rows ++
    [separator, meanText nt "average link util                : " a, meanText nt "cycle-weighted overall link util : " b,
      meanText nt "cycle-weighted dram bw util      : " c, meanText nt "cycle-weighted eth bw util       : " d]))

end NPE.Analyze
