import Verif.Model.DepTracker
import Verif.Spec.Route

/-
Vocabulary for statements about bandwidth and load.
-/

namespace NPE.Spec

/-- The part of the timestep `[sot, curr]` in which a transfer is active. -/
def share (sot curr : Nat) (t : TState) : ℚ :=
  ((curr : ℚ) - (max sot t.start : Nat)) / ((curr : ℚ) - sot)

/-- Summed bandwidth, weighted by the active part of the timestep, of the live transfers with the
property `use`. -/
def loadOf (use : TState → Prop) [DecidablePred use] (sot curr : Nat) (ts : List TState)
    (live : List Nat) : ℚ :=
  (live.map fun i => match ts[i]? with
    | some t => if use t then share sot curr t * t.bw else 0
    | none => 0).sum

/-- Load of a link, of the injecting side of a core, and of the absorbing side of a core by unicast
transfers. -/
def linkLoad (l : Int) : Nat → Nat → List TState → List Nat → ℚ := loadOf fun t => l ∈ t.route
def srcLoad (noc : Noc) (c : Coord) : Nat → Nat → List TState → List Nat → ℚ :=
  loadOf fun t => t.params.noc = noc ∧ t.params.src = c
def unicastSinkLoad (noc : Noc) (c : Coord) : Nat → Nat → List TState → List Nat → ℚ :=
  loadOf fun t => t.params.noc = noc ∧ t.params.dst = .unicast c

/-- The live transfers are transfers of the list, have started by `curr`, and have bandwidths and
injection rates that are not negative. -/
def Sane (curr : Nat) (ts : List TState) (live : List Nat) : Prop :=
  live.Nodup ∧ ∀ i ∈ live, ∀ t, ts[i]? = some t →
    t.start ≤ curr ∧ 0 ≤ t.bw ∧ 0 ≤ t.params.injectionRate

/-- A device whose capacities are not negative. -/
def Capacities (dev : Device) : Prop :=
  0 ≤ dev.linkBw ∧ (∀ c, 0 ≤ dev.injRate c) ∧ ∀ c, 0 ≤ dev.absRate c

/-- The same core: a single-chip model ignores the device of a coordinate. -/
def SameCore (dev : Device) (a b : Coord) : Prop :=
  (dev.multichip = true → a.dev = b.dev) ∧ a.row = b.row ∧ a.col = b.col

/-- A core that a transfer delivers to. -/
def DeliversTo (t : Transfer) (c : Coord) : Prop :=
  match t.dst with
  | .unicast d => c = d
  | .mcast gs => ∃ g ∈ gs, InRect g c

/-- The rectangles of a multicast are well-formed. -/
def RectsOk (t : Transfer) : Prop := ∀ gs, t.dst = .mcast gs → ∀ g ∈ gs, RectOk g

/-- Two transfers that share no source interface, no sink interface and no link. -/
structure Apart (dev : Device) (t u : TState) : Prop where
  links : ∀ l ∈ t.route, l ∉ u.route
  sources : t.params.noc = u.params.noc → ¬ SameCore dev t.params.src u.params.src
  sinks : t.params.noc = u.params.noc → ∀ a b, DeliversTo t.params a → DeliversTo u.params b →
    ¬ SameCore dev a b

instance (dev : Device) (a b : Coord) : Decidable (SameCore dev a b) := by
  unfold SameCore; infer_instance

/-- A core in a rectangle: a single-chip model ignores the device. -/
def Covers (dev : Device) (g : CoordGrid) (c : Coord) : Prop :=
  (dev.multichip = true → c.dev = g.lo.dev) ∧ (g.lo.row ≤ c.row ∧ c.row ≤ g.hi.row) ∧
    (g.lo.col ≤ c.col ∧ c.col ≤ g.hi.col)

instance (dev : Device) (g : CoordGrid) (c : Coord) : Decidable (Covers dev g c) := by
  unfold Covers; infer_instance

/-- How often the data of a transfer are counted as leaving or reaching a core: a multicast reaches only
worker cores, once per rectangle. -/
def leaves (dev : Device) (noc : Noc) (c : Coord) (t : TState) : Nat :=
  if t.params.noc = noc ∧ SameCore dev t.params.src c then 1 else 0
def reaches (dev : Device) (noc : Noc) (c : Coord) (t : TState) : Nat :=
  if t.params.noc = noc then
    match t.params.dst with
    | .unicast d => if SameCore dev d c then 1 else 0
    | .mcast gs => if dev.getCoreType c = .ok .worker then gs.countP fun g => Covers dev g c else 0
  else 0

/-- Summed bandwidth, weighted by the active part of the timestep and by `w`. -/
def offered (w : TState → Nat) (sot curr : Nat) (ts : List TState) (live : List Nat) : ℚ :=
  (live.map fun i => match ts[i]? with
    | some t => (w t : ℚ) * (share sot curr t * t.bw)
    | none => 0).sum

/-- Number of demands that make up such a sum. -/
def uses (w : TState → Nat) (ts : List TState) (live : List Nat) : Nat :=
  (live.map fun i => match ts[i]? with
    | some t => w t
    | none => 0).sum

end NPE.Spec
