import Verif.Model.Cli

/-
The example program py/examples/programmatic_workload_generation.py (citations relative to /repo/tt_npe),
which builds a random workload through the Python bindings and simulates it.

Simplification: what is printed is not modelled.  The random choices are a parameter.
-/

namespace NPE.Example

/-- The random choices for one transfer, lines 29-60. -/
structure Draw where
  srcRow : Int
  dstRow : Int
  srcCol : Int
  dstCol : Int
  noc : Noc
  offset : Nat
  size : Nat

/-- The ranges of the choices, lines 29-32, 42, 47 and 60 (`randint` includes both ends). -/
structure Draw.Possible (d : Draw) : Prop where
  srcRow : 0 ≤ d.srcRow ∧ d.srcRow ≤ 8
  dstRow : 0 ≤ d.dstRow ∧ d.dstRow ≤ 8
  srcCol : 1 ≤ d.srcCol ∧ d.srcCol ≤ 2
  dstCol : 5 ≤ d.dstCol ∧ d.dstCol ≤ 6
  offset : d.offset ≤ 512
  size : d.size ∈ [1024, 2048, 4096, 8192]

/-- The transfer, lines 38-71: one packet, injection rate 0. -/
def Draw.transfer (d : Draw) : Transfer :=
  Transfer.make d.size 1 ⟨0, d.srcRow, d.srcCol⟩ (.unicast ⟨0, d.dstRow, d.dstCol⟩) 0 d.offset d.noc

/-- `genWorkload`, lines 21-75.  The loop draws 30 times (line 28). -/
def genWorkload (draws : List Draw) : Workload :=
  Workload.addPhase {} { transfers := draws.map Draw.transfer }

/-- Lines 80-100 of `main`: create the interface with the default configuration, simulate, report (as in
`Cli.finish`, the report reads `result.wallclock_runtime_us`, line 96). -/
def simulate (fp : FP) (ho : HashOrder) (wl : Workload) : Out Nat :=
  Cli.initApi fp {} >>= fun api =>
    match api with
    | none => .ok 1
    | some api => api.runNPE fp ho wl >>= Cli.finish

/-- `main`, lines 77-100. -/
def main (fp : FP) (ho : HashOrder) (draws : List Draw) : Out Nat := simulate fp ho (genWorkload draws)

end NPE.Example
