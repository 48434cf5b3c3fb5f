import Verif.Model.Ingest

/-
Building a workload through the Python bindings, cpp/pybind/bindings.cpp (citations relative to /repo/tt_npe).

Arguments are Python numbers.  The casts of pybind11 refuse integers that the C++ type cannot hold (`TypeError` for
arguments, `cast_error` for explicit casts).  Simplification: infinite injection rates and arguments of other Python
types are not modelled.
-/

namespace NPE.Bind

/-- The argument of type `uint32_t`. -/
def u32 (n : Int) : Out Nat := if 0 ≤ n ∧ n < 4294967296 then .ok n.toNat else .std .pyType

/-- The argument of type `int`. -/
def int (n : Int) : Out Int := if -2147483648 ≤ n ∧ n < 2147483648 then .ok n else .std .pyType

/-- `Coord(device_id, row, col)`, bindings.cpp:226: three `int`s, passed to the constructor with 16-bit fields,
cpp/include/npeUtil.hpp:164-169. -/
def coord (c : Int × Int × Int) : Out Coord := do
  let d ← int c.1
  let r ← int c.2.1
  let k ← int c.2.2
  return mkCoord d r k

/-- The argument of type `NocDestination`: a `Coord` or a `MulticastCoordSet`, bindings.cpp:231-235. -/
inductive DstArg where
  | core (c : Int × Int × Int)
  | rect (start stop : Int × Int × Int)
  deriving DecidableEq

def DstArg.dest : DstArg → Out Dest
  | .core c => do
    let c ← coord c
    return .unicast c
  | .rect a b => do
    let a ← coord a
    let b ← coord b
    let gs ← mkMcast a b
    return .mcast gs

/-- Arguments of `Transfer`, bindings.cpp:253-275. -/
structure Args where
  packetSize : Int
  numPackets : Int
  src : Int × Int × Int
  dst : DstArg
  /-- a Python float, that is a `double` -/
  injectionRate : ℚ
  offset : Int
  noc : Noc

/-- `Transfer(...)`, bindings.cpp:253-275: the offset is an `int` that is converted to `CycleCount`
(cpp/include/npeWorkload.hpp:35). -/
def transfer (fp : FP) (a : Args) : Out Transfer := do
  let s ← coord a.src
  let d ← a.dst.dest
  let p ← u32 a.packetSize
  let n ← u32 a.numPackets
  let o ← int a.offset
  return Transfer.make p n s d (fp.f32.fl a.injectionRate) (toU32 o) a.noc

/-- A `Phase` with the given transfers, bindings.cpp:283-289, added to a workload, bindings.cpp:298-299. -/
def addPhase (fp : FP) (wl : Workload) (as : List Args) : Out Workload := do
  let ts ← Out.mapM (transfer fp) as
  return wl.addPhase { transfers := ts }

/-- An entry of the dictionary of golden cycles, bindings.cpp:302-305. -/
def goldenEntry (e : Int × Int × Int) : Out (Int × Nat × Nat) :=
  if (-32768 ≤ e.1 ∧ e.1 < 32768) ∧ (0 ≤ e.2.1 ∧ e.2.1 < 4294967296) ∧ (0 ≤ e.2.2 ∧ e.2.2 < 4294967296) then
    .ok (e.1, e.2.1.toNat, e.2.2.toNat)
  else .std .castError

/-- `setGoldenResultCycles`, bindings.cpp:300-308.  The keys of a dictionary are different. -/
def setGolden (wl : Workload) (m : List (Int × Int × Int)) : Out Workload := do
  let g ← Out.mapM goldenEntry m
  return wl.setGoldenResultCycles g

/-- A program that makes a workload, adds phases and perhaps sets the golden cycles. -/
def workload (fp : FP) (phases : List (List Args)) (golden : Option (List (Int × Int × Int))) : Out Workload := do
  let wl ← Out.foldlM (addPhase fp) {} phases
  match golden with
  | none => return wl
  | some m => setGolden wl m

end NPE.Bind
