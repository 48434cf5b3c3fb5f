import Verif.Model.Summary

/-
Pickling of statistics in the Python bindings: pybind/bindings.cpp:86-184.  Citations relative to
/repo/tt_npe/cpp.

Simplifications: a Python object is one of the kinds below; a `dict` from device ids to statistics
is a list of pairs; the conversion of a Python `int` beyond the range of `double` (an error) is not
modelled.
-/

namespace NPE

/-- Python values that occur in a pickled state. -/
inductive Py where
  | none
  | bool (b : Bool)
  | int (n : Int)
  | float (x : Dbl)
  | str (s : String)
  | list (l : List Py)
  | tuple (l : List Py)

namespace Py

/-- `cast<bool>()`: pybind11 converts everything that has a truth value as a number, and `None`. -/
def castBool : Py → Out Bool
  | .bool b => .ok b
  | .none => .ok false
  | .int n => .ok (n ≠ 0)
  | .float x => .ok (x ≠ .num 0)
  | _ => .std .castError

/-- `cast<size_t>()`: a `float` is refused. -/
def castSize : Py → Out Nat
  | .bool b => .ok b.toNat
  | .int n => if 0 ≤ n ∧ n < 18446744073709551616 then .ok n.toNat else .std .castError
  | _ => .std .castError

/-- `cast<int>()`. -/
def castInt : Py → Out Int
  | .bool b => .ok b.toNat
  | .int n => if -2147483648 ≤ n ∧ n < 2147483648 then .ok n else .std .castError
  | _ => .std .castError

/-- `cast<double>()`. -/
def castDouble (fp : FP) : Py → Out Dbl
  | .bool b => .ok (.num b.toNat)
  | .int n => .ok (.num (fp.f64.fl n))
  | .float x => .ok x
  | _ => .std .castError

/-- `cast<py::list>()`. -/
def castList : Py → Out (List Py)
  | .list l => .ok l
  | _ => .std .castError

/-- `cast<py::tuple>()`. -/
def castTuple : Py → Out (List Py)
  | .tuple l => .ok l
  | _ => .std .castError

/-- `t[i]` of a tuple. -/
def item (t : List Py) (i : Nat) : Out Py :=
  match t[i]? with
  | some x => .ok x
  | .none => .std .pyIndex

end Py

/-- `npeStats::deviceStats` as far as Python can see it, include/npeStats.hpp:52-79 and
pybind/bindings.cpp:44-66. -/
structure PyStats where
  completed : Bool := false
  estimatedCycles : Nat := 0
  estimatedCongFreeCycles : Nat := 0
  goldenCycles : Nat := 0
  cyclePredictionError : Dbl := .num 0
  wallclockRuntimeUs : Nat := 0
  avgLinkDemand : Dbl := .num 0
  maxLinkDemand : Dbl := .num 0
  avgLinkUtil : Dbl := .num 0
  maxLinkUtil : Dbl := .num 0
  avgNiuDemand : Dbl := .num 0
  maxNiuDemand : Dbl := .num 0
  avgNoc0Demand : Dbl := .num 0
  avgNoc0Util : Dbl := .num 0
  maxNoc0Demand : Dbl := .num 0
  avgNoc1Demand : Dbl := .num 0
  avgNoc1Util : Dbl := .num 0
  maxNoc1Demand : Dbl := .num 0
  avgMcastUtil : Dbl := .num 0
  dramUtil : Dbl := .num 0
  dramUtilSim : Dbl := .num 0
  ethUtil : List (Coord × Dbl) := []
  deriving DecidableEq

/-- The part of a report that Python can see; `wall` is the measured time, which the model of the
simulation leaves out. -/
def DevReport.visible (r : DevReport) (wall : Nat) : PyStats where
  completed := r.stats.completed
  estimatedCycles := r.stats.estimated
  estimatedCongFreeCycles := r.stats.estimatedCongFree
  goldenCycles := r.stats.golden
  cyclePredictionError := r.summary.cyclePredictionError
  wallclockRuntimeUs := wall
  avgLinkDemand := r.summary.avgLinkDemand
  maxLinkDemand := .num r.summary.maxLinkDemand
  avgLinkUtil := r.summary.avgLinkUtil
  maxLinkUtil := .num r.summary.maxLinkUtil
  avgNiuDemand := r.summary.avgNiuDemand
  maxNiuDemand := .num r.summary.maxNiuDemand
  avgNoc0Demand := r.summary.avgNoc0Demand
  avgNoc0Util := r.summary.avgNoc0Util
  maxNoc0Demand := .num r.summary.maxNoc0Demand
  avgNoc1Demand := r.summary.avgNoc1Demand
  avgNoc1Util := r.summary.avgNoc1Util
  maxNoc1Demand := .num r.summary.maxNoc1Demand
  avgMcastUtil := r.summary.avgMcastUtil
  dramUtil := r.summary.dramUtil
  dramUtilSim := r.summary.dramUtilSim
  ethUtil := r.summary.ethUtil

namespace PyStats

/-- One entry of `eth_bw_list`, pybind/bindings.cpp:92. -/
def ethItem (e : Coord × Dbl) : Py := .tuple [.int e.1.dev, .int e.1.row, .int e.1.col, .float e.2]

/-- State of a `deviceStats` object, pybind/bindings.cpp:88-117. -/
def pickle (s : PyStats) : List Py :=
  [.bool s.completed,
   .int s.estimatedCycles,
   .int s.estimatedCongFreeCycles,
   .int s.goldenCycles,
   .float s.cyclePredictionError,
   .int s.wallclockRuntimeUs,
   .float s.avgLinkDemand,
   .float s.maxLinkDemand,
   .float s.avgNiuDemand,
   .float s.maxNiuDemand,
   .float s.avgLinkUtil,
   .float s.maxLinkUtil,
   .float s.avgNoc0Demand,
   .float s.avgNoc0Util,
   .float s.maxNoc0Demand,
   .float s.avgNoc1Demand,
   .float s.avgNoc1Util,
   .float s.maxNoc1Demand,
   .float s.avgMcastUtil,
   .float s.dramUtil,
   .float s.dramUtilSim,
   .list (s.ethUtil.map ethItem)]

/-- `ds.eth_bw_util_per_core[coord] = value`. -/
def setEth (m : List (Coord × Dbl)) (c : Coord) (v : Dbl) : List (Coord × Dbl) :=
  match m with
  | [] => [(c, v)]
  | e :: m => if e.1 = c then (c, v) :: m else e :: setEth m c v

/-- Body of the loop over `eth_bw_list`, pybind/bindings.cpp:147-152; the constructor of `Coord`
narrows to 16 bits (include/npeUtil.hpp:164). -/
def ethLoad (fp : FP) (m : List (Coord × Dbl)) (x : Py) : Out (List (Coord × Dbl)) :=
  Py.castTuple x >>= fun t =>
  (Py.item t 0 >>= Py.castInt) >>= fun d =>
  (Py.item t 1 >>= Py.castInt) >>= fun r =>
  (Py.item t 2 >>= Py.castInt) >>= fun c =>
  (Py.item t 3 >>= Py.castDouble fp) >>= fun v =>
  .ok (setEth m ⟨d.bmod 65536, r.bmod 65536, c.bmod 65536⟩ v)

/-- Counters of the state, pybind/bindings.cpp:123-128. -/
def loadCounters (fp : FP) (t : List Py) (s : PyStats) : Out PyStats :=
  (Py.item t 0 >>= Py.castBool) >>= fun x0 =>
  (Py.item t 1 >>= Py.castSize) >>= fun x1 =>
  (Py.item t 2 >>= Py.castSize) >>= fun x2 =>
  (Py.item t 3 >>= Py.castSize) >>= fun x3 =>
  (Py.item t 4 >>= Py.castDouble fp) >>= fun x4 =>
  (Py.item t 5 >>= Py.castSize) >>= fun x5 =>
  .ok { s with completed := x0, estimatedCycles := x1, estimatedCongFreeCycles := x2,
               goldenCycles := x3, cyclePredictionError := x4, wallclockRuntimeUs := x5 }

/-- Link and NIU figures, pybind/bindings.cpp:129-134. -/
def loadOverall (fp : FP) (t : List Py) (s : PyStats) : Out PyStats :=
  (Py.item t 6 >>= Py.castDouble fp) >>= fun x6 =>
  (Py.item t 7 >>= Py.castDouble fp) >>= fun x7 =>
  (Py.item t 8 >>= Py.castDouble fp) >>= fun x8 =>
  (Py.item t 9 >>= Py.castDouble fp) >>= fun x9 =>
  (Py.item t 10 >>= Py.castDouble fp) >>= fun x10 =>
  (Py.item t 11 >>= Py.castDouble fp) >>= fun x11 =>
  .ok { s with avgLinkDemand := x6, maxLinkDemand := x7, avgNiuDemand := x8, maxNiuDemand := x9,
               avgLinkUtil := x10, maxLinkUtil := x11 }

/-- Figures of the two NoCs, pybind/bindings.cpp:135-140. -/
def loadNocs (fp : FP) (t : List Py) (s : PyStats) : Out PyStats :=
  (Py.item t 12 >>= Py.castDouble fp) >>= fun x12 =>
  (Py.item t 13 >>= Py.castDouble fp) >>= fun x13 =>
  (Py.item t 14 >>= Py.castDouble fp) >>= fun x14 =>
  (Py.item t 15 >>= Py.castDouble fp) >>= fun x15 =>
  (Py.item t 16 >>= Py.castDouble fp) >>= fun x16 =>
  (Py.item t 17 >>= Py.castDouble fp) >>= fun x17 =>
  .ok { s with avgNoc0Demand := x12, avgNoc0Util := x13, maxNoc0Demand := x14,
               avgNoc1Demand := x15, avgNoc1Util := x16, maxNoc1Demand := x17 }

/-- Multicast, DRAM and ethernet figures, pybind/bindings.cpp:141-153. -/
def loadRest (fp : FP) (t : List Py) (s : PyStats) : Out PyStats :=
  (Py.item t 18 >>= Py.castDouble fp) >>= fun x18 =>
  (Py.item t 19 >>= Py.castDouble fp) >>= fun x19 =>
  (Py.item t 20 >>= Py.castDouble fp) >>= fun x20 =>
  (Py.item t 21 >>= Py.castList) >>= fun l =>
  Out.foldlM (ethLoad fp) [] l >>= fun eth =>
  .ok { s with avgMcastUtil := x18, dramUtil := x19, dramUtilSim := x20, ethUtil := eth }

/-- Object of a state, pybind/bindings.cpp:118-155. -/
def unpickle (fp : FP) (t : List Py) : Out PyStats :=
  if t.length ≠ 22 then .std .runtimeError
  else loadCounters fp t {} >>= loadOverall fp t >>= loadNocs fp t >>= loadRest fp t

/-- `getAggregateEthBwUtil`, src/npeStats.cpp:907-916. -/
def aggregateEth (s : PyStats) : Dbl :=
  if s.ethUtil = [] then .num 0
  else
    match s.ethUtil.foldl (fun (a : Dbl) e => a.add e.2) (Dbl.num 0) with
    | .num x => fdiv x s.ethUtil.length
    | x => x

end PyStats

/-- State of an `npeStats` object, pybind/bindings.cpp:173-176: the statistics per device, each
pickled in turn. -/
def pickleReport (r : List (Int × PyStats)) : List (Int × List Py) := r.map fun e => (e.1, e.2.pickle)

/-- Object of a state, pybind/bindings.cpp:177-184: `cast` to a map with keys of 16 bits. -/
def unpickleReport (fp : FP) (l : List (Int × List Py)) : Out (List (Int × PyStats)) :=
  Out.mapM (fun (e : Int × List Py) =>
    if -32768 ≤ e.1 ∧ e.1 < 32768 then PyStats.unpickle fp e.2 >>= fun s => .ok (e.1, s)
    else .std .castError) l

end NPE
