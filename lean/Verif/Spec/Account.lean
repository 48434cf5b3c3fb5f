import Verif.Spec.Stats

/-
What the records of a run say about the data on the links, and what the transfers have sent over them.
-/

namespace NPE.Spec

/-- The data that the transfers send over a link: their bytes, as often as the link occurs in their routes. -/
def linkBytes (ts : List TState) (l : Int) : ℚ :=
  (ts.map fun t => (t.route.count l : ℚ) * t.params.totalBytes).sum

/-- The data that the transfers send over all links. -/
def hopBytes (ts : List TState) : ℚ := (ts.map fun t => (t.route.length : ℚ) * t.params.totalBytes).sum

/-- The data that a link has carried according to the records: the demand, as far as the link has the bandwidth for it,
for the cycles of the record. -/
def carried (bw : ℚ) (steps : List TimestepStats) (l : Int) : ℚ :=
  (steps.map fun r => min (r.linkGrid.getD l.toNat 0) bw * ((r.endc : ℚ) - r.startc)).sum

/-- The data that a link was asked to carry according to the records. -/
def requested (steps : List TimestepStats) (l : Int) : ℚ :=
  (steps.map fun r => r.linkGrid.getD l.toNat 0 * ((r.endc : ℚ) - r.startc)).sum

/-- The data that all links were asked to carry according to the records. -/
def requestedAll (steps : List TimestepStats) : ℚ :=
  (steps.map fun r => r.linkGrid.sum * ((r.endc : ℚ) - r.startc)).sum

/-- The data that all links have carried according to the average utilisation (in percent) in the records; `cap` is the
bandwidth of all links together. -/
def carriedAll (cap : ℚ) (steps : List TimestepStats) : ℚ :=
  (steps.map fun r => r.avgLinkUtil / 100 * cap * ((r.endc : ℚ) - r.startc)).sum

end NPE.Spec
