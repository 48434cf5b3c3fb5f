import Verif.Model.Analyze
import Verif.Spec.Text

/-
A reader for the summary table of the analysis script, independent of the functions that print it.
-/

namespace NPE.Spec.Table
open NPE.Spec NPE.Spec.Text

/-- What a row says. -/
structure Row where
  name : List Char
  op : Nat
  trace : Option Nat
  noc : Dbl
  mcast : Dbl
  dram : Dbl
  impact : Dbl
  share : Dbl
  eth : List (Coord × Dbl)
  deriving DecidableEq

/-- Spaces, a figure and a percent sign. -/
def readPercent (cs : List Char) : Option (Dbl × List Char) := do
  let (x, cs) ← readFigure (skip cs)
  let cs ← expect "%".toList cs
  return (x, cs)

/-- The id of a trace, a number followed by a space, may be missing. -/
def readTrace (cs : List Char) : Option Nat × List Char :=
  match readNat (skip cs) with
  | some (n, r) => if r.head? = some ' ' then (some n, r) else (none, cs)
  | none => (none, cs)

/-- A row. -/
def readRow (line : List Char) : Option Row := do
  let name := line.takeWhile (· ≠ ' ')
  let (op, cs) ← readNat (skip (line.dropWhile (· ≠ ' ')))
  let (trace, cs) := readTrace cs
  let (noc, cs) ← readPercent cs
  let (mcast, cs) ← readPercent cs
  let (dram, cs) ← readPercent cs
  let (impact, cs) ← readPercent cs
  let (share, cs) ← readPercent cs
  let eth ← readEth (skip cs)
  return ⟨name, op, trace, noc, mcast, dram, impact, share, eth⟩

/-- `... 5 operations omitted` and more. -/
def readOmitted (line : List Char) : Option Int := do
  let cs ← expect "... ".toList line
  let (n, cs) ← readInt cs
  let _ ← expect " operations omitted".toList cs
  return n

/-- A figure below the table. -/
def readMean (label : String) (line : List Char) : Option Dbl := do
  let cs ← expect label.toList line
  let cs ← expect ":".toList (skip cs)
  let (x, cs) ← readPercent cs
  if skip cs = [] then some x else none

/-- What the table says. -/
structure TableView where
  rows : List Row
  /-- operations said to be left out; 0 without such a line -/
  omitted : Int
  avgLink : Dbl
  link : Dbl
  dram : Dbl
  eth : Dbl
  deriving DecidableEq

/-- A line of dashes. -/
def isRule (line : List Char) : Bool := 0 < line.length && line.all (· = '-')

/-- The line about operations that are left out may be missing. -/
def maybeOmitted : List (List Char) → Int × List (List Char)
  | l :: ls => match readOmitted l with
    | some n => (n, ls)
    | none => (0, l :: ls)
  | [] => (0, [])

/-- All rows can be read. -/
def readRows : List (List Char) → Option (List Row)
  | [] => some []
  | l :: ls => do return (← readRow l) :: (← readRows ls)

/-- The figures below the table. -/
def readMeans : List (List Char) → Option (Dbl × Dbl × Dbl × Dbl)
  | [a, b, c, d] => do
    return (← readMean "average link util" a, ← readMean "cycle-weighted overall link util" b,
      ← readMean "cycle-weighted dram bw util" c, ← readMean "cycle-weighted eth bw util" d)
  | _ => none

/-- The table: a heading between two rules, rows, perhaps a line about what is left out, a rule and the means. -/
def readTable : List (List Char) → Option TableView
  | r1 :: _ :: r2 :: ls =>
    if isRule r1 ∧ isRule r2 then do
      let rows ← readRows (ls.takeWhile fun l => (!isRule l && (readOmitted l).isNone))
      let (omitted, ls) := maybeOmitted (ls.dropWhile fun l => (!isRule l && (readOmitted l).isNone))
      match ls with
      | r3 :: ls =>
        if isRule r3 then do
          let (a, b, c, d) ← readMeans ls
          return ⟨rows, omitted, a, b, c, d⟩
        else none
      | [] => none
    else none
  | _ => none

/-- Equal up to half a hundredth; what is not a number is the same. -/
def Close2 : Dbl → Dbl → Prop
  | .num a, .num b => |a - b| ≤ 1 / 200
  | .nan, .nan => True
  | .inf, .inf => True
  | .ninf, .ninf => True
  | _, _ => False

/-- The law of printing with two decimals: the nearest hundredth. -/
def Nearest2 (nh : ℚ → Nat) : Prop := ∀ x, 0 ≤ x → |100 * x - nh x| ≤ 1 / 2

/-- A row tells the truth about a datapoint when all datapoints together have `all` golden cycles. -/
structure Says (row : Row) (d : NPE.Analyze.Datapoint) (all : ℚ) : Prop where
  name : row.name = d.opName
  op : row.op = d.uid.op
  trace : row.trace = d.uid.trace
  noc : Close2 row.noc d.result.avgLinkUtil
  mcast : Close2 row.mcast d.result.avgMcastUtil
  dram : Close2 row.dram d.result.dramUtil
  impact : d.result.estimatedCycles ≠ 0 → d.result.estimatedCongFreeCycles ≠ 0 →
    Close2 row.impact (.num (100 * (1 - d.result.estimatedCongFreeCycles / d.result.estimatedCycles)))
  share : Close2 row.share (.num (100 * d.result.goldenCycles / all))
  order : Ascending row.eth
  cores : (row.eth.map (·.1)).Perm (d.result.ethUtil.map (·.1))
  eth : ∀ c x y, (c, x) ∈ d.result.ethUtil → (c, y) ∈ row.eth → Close y x

end NPE.Spec.Table
