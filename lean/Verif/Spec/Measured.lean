import Verif.Model.Summary
import Verif.Model.Api

/-
What it means that a measurement has no influence on an estimate.
-/

namespace NPE.Spec

/-- Two tables of measured windows that name the same devices, with the same first cycles. -/
def SameStarts (g g' : GoldenMap) : Prop := g'.map (fun e => (e.1, e.2.1)) = g.map (fun e => (e.1, e.2.1))

/-- The ends of the windows lie on the same side of the cycle in which a transfer is issued, for the window of its chip
and that of the mesh. -/
def SameIssued (g g' : GoldenMap) (ts : List Transfer) : Prop :=
  ∀ t ∈ ts, ∀ d, d = t.src.dev ∨ d = MESH_DEVICE → ∀ w w', g.lookup d = some w → g'.lookup d = some w' →
    (t.offset ≤ w.2 ↔ t.offset ≤ w'.2)

/-- A report without what is computed from the measured cycles: these cycles, the error of the prediction, and the
utilisations of memory and ethernet cores over the measured time. -/
def unmeasured (r : DevReport) : DevReport :=
  { stats := { r.stats with golden := 0 }
    summary := { r.summary with
      cyclePredictionError := .num 0
      dramUtil := .num 0
      ethUtil := r.summary.ethUtil.map fun e => (e.1, .num 0) } }

/-- A result without what is computed from the measured cycles. -/
def unmeasuredResult : Result → Result
  | .inl r => .inl (r.map fun e => (e.1, unmeasured e.2))
  | .inr e => .inr e

end NPE.Spec
