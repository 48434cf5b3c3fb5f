import Verif.Model.Example

/-
The random test of the Python bindings, `test_npe_create_and_run_larger_synthetic_workload` in
py/pytest/test_bindings.py (citations relative to /repo/tt_npe).

Simplification: the random choices are a parameter.
-/

namespace NPE.RandomTest

/-- The random choices for one transfer, lines 92-98. -/
structure Draw where
  size : Nat
  packets : Nat
  srcCol : Int
  srcRow : Int
  dstCol : Int
  dstRow : Int
  noc : Noc

/-- The ranges of the choices, lines 92-98 (`range` excludes its end). -/
structure Draw.Possible (d : Draw) : Prop where
  size : ∃ k, 2 ≤ k ∧ k < 16 ∧ d.size = k * 256
  packets : 2 ≤ d.packets ∧ d.packets < 10
  srcCol : 1 ≤ d.srcCol ∧ d.srcCol < 8
  srcRow : 1 ≤ d.srcRow ∧ d.srcRow < 8
  dstCol : 1 ≤ d.dstCol ∧ d.dstCol < 8
  dstRow : 1 ≤ d.dstRow ∧ d.dstRow < 8

/-- The transfer, lines 99-101: injection rate 0, offset 0. -/
def Draw.transfer (d : Draw) : Transfer :=
  Transfer.make d.size d.packets ⟨0, d.srcRow, d.srcCol⟩ (.unicast ⟨0, d.dstRow, d.dstCol⟩) 0 0 d.noc

/-- The workload, lines 90-107. -/
def workload (draws : List Draw) : Workload :=
  (Workload.addPhase {} { transfers := draws.map Draw.transfer }).setGoldenResultCycles [(0, (0, 32))]

/-- Lines 109-112: whether the two assertions hold. -/
def passes (fp : FP) (ho : HashOrder) (draws : List Draw) : Out Bool :=
  Cli.initApi fp {} >>= fun api =>
    match api with
    | none => .ok false
    | some api => api.runNPE fp ho (workload draws) >>= fun r =>
        match r with
        | .inl _ => .ok true
        | .inr _ => .ok false

end NPE.RandomTest
