import Verif.Spec.Congestion

/-
What a transfer has to pass, for statements about the cause and the size of a slow-down.
-/

namespace NPE.Spec

/-- A link of the route, the source or the sink of a transfer, given by its capacity and by how often other
transfers are counted there.  (The sinks of multicasts limit nothing, see C28.) -/
inductive Passes (dev : Device) (t : TState) : ℚ → (TState → Nat) → Prop
  | link (l : Int) (h : l ∈ t.route) : Passes dev t dev.linkBw fun u => u.route.count l
  | source : Passes dev t t.params.injectionRate (leaves dev t.params.noc t.params.src)
  | sink (d : Coord) (a : ℚ) (h : t.params.dst = .unicast d) (ha : dev.getSinkAbsorptionRate d = .ok a) :
    Passes dev t a (reaches dev t.params.noc d)

end NPE.Spec
