import Verif.Model.Fabric

/-
What the fabric script should compute (C57, C58, C74–C76): positions of chips in a mesh, moves between
neighbours, desynchronised timestamps.
-/

namespace NPE.Spec.Fabric
open NPE.Fabric

/-- The chip `dev` is in column `x` and row `y` of mesh `mesh` with `ns` rows and `ew` columns. -/
structure Sits (t : Topology) (dev mesh ns ew x y : Int) : Prop where
  node : (dev, (mesh, y * ew + x)) ∈ t.nodes
  shape : (mesh, (ns, ew)) ∈ t.meshShapes
  x0 : 0 ≤ x
  x1 : x < ew
  y0 : 0 ≤ y
  y1 : y < ns

/-- A table of chips that describes meshes: ids are unique, each chip has a place of its own in a mesh of known
shape, each place has a chip. -/
structure Proper (t : Topology) : Prop where
  ids : (t.nodes.map (·.1)).Nodup
  places : (t.nodes.map (·.2)).Nodup
  meshes : (t.meshShapes.map (·.1)).Nodup
  placed : ∀ e ∈ t.nodes, ∃ ns ew, (e.2.1, (ns, ew)) ∈ t.meshShapes ∧ 0 < ew ∧ 0 ≤ e.2.2 ∧ e.2.2 < ns * ew
  full : ∀ m ns ew, (m, (ns, ew)) ∈ t.meshShapes → ∀ x y, 0 ≤ x → x < ew → 0 ≤ y → y < ns →
    ∃ dev, (dev, (m, y * ew + x)) ∈ t.nodes

/-- One column or row further in a direction; rows count southwards. -/
def unit : Dir → Int × Int
  | .N => (0, -1)
  | .S => (0, 1)
  | .E => (1, 0)
  | .W => (-1, 0)

/-- Is the place within the mesh? -/
def Inside (ns ew x y : Int) : Prop := 0 ≤ x ∧ x < ew ∧ 0 ≤ y ∧ y < ns

instance (ns ew x y : Int) : Decidable (Inside ns ew x y) := by unfold Inside; infer_instance

/-- Does a move from (x, y) in direction `d` leave the mesh? -/
def Leaves (ns ew x y : Int) (d : Dir) : Prop := ¬ Inside ns ew (x + (unit d).1) (y + (unit d).2)

instance (ns ew x y : Int) (d : Dir) : Decidable (Leaves ns ew x y d) := by unfold Leaves; infer_instance

/-- Opposite borders are connected. -/
def Wraps (t : Topology) : Prop := t.fabricConfig ∈ ["FABRIC_1D_RING", "FABRIC_2D_TORUS"]

instance (t : Topology) : Decidable (Wraps t) := by unfold Wraps; infer_instance

/-- Lines of chips turn at the corners: one-dimensional fabrics on T3K. -/
def Turns (t : Topology) : Prop := t.fabricConfig ∈ ["FABRIC_1D", "FABRIC_1D_RING"] ∧ t.clusterType = "T3K"

instance (t : Topology) : Decidable (Turns t) := by unfold Turns; infer_instance

/-- The place is a corner of the mesh. -/
def Corner (ns ew x y : Int) : Prop := (x = 0 ∨ x = ew - 1) ∧ (y = 0 ∨ y = ns - 1)

instance (ns ew x y : Int) : Decidable (Corner ns ew x y) := by unfold Corner; infer_instance

/-- Two directions along different axes. -/
def Perpendicular (d d' : Dir) : Prop := (d = .N ∨ d = .S) ↔ (d' = .E ∨ d' = .W)

instance (d d' : Dir) : Decidable (Perpendicular d d') := by unfold Perpendicular; infer_instance

/-- The place after a move from (x, y): one further, through the opposite border if these are connected. -/
def moved (t : Topology) (ns ew x y : Int) (d : Dir) : Int × Int :=
  if Wraps t then ((x + (unit d).1) % ew, (y + (unit d).2) % ns) else (x + (unit d).1, y + (unit d).2)

/-- A move from chip `a` in direction `d` leads to chip `b`; there it goes on in direction `d'`, which is the same
unless the line turns. -/
def Moves (t : Topology) (a : Int) (d : Dir) (b : Int) (d' : Dir) : Prop :=
  ∃ m ns ew x y, Sits t a m ns ew x y ∧ Sits t b m ns ew (moved t ns ew x y d').1 (moved t ns ew x y d').2 ∧
    (d' ≠ d → Turns t ∧ Corner ns ew x y ∧ Leaves ns ew x y d)

/-- The ethernet core of chip `a` for direction `d` of a routing plane is at `p`. -/
def Port (t : Topology) (a plane : Int) (d : Dir) (p : Int × Int) : Prop :=
  ∃ chan, ((a, plane, d), chan) ∈ t.planes ∧ (chan, p) ∈ t.ethCoord

/-- The writes of hop `k`: from hop `start` on. -/
def writesAt (start k : Int) (dst : List Json) : Option (List Json) := if start ≤ k then some dst else none

/-- `Line t plane dst start par k a d p segs z`: the segments `segs` are the hops from number `k` on of a line
through chips: hop `k` is on chip `a`, entered in direction `d` at ethernet core `p`; each hop but the last goes on to
the next chip over the connected ethernet cores of the plane; hops from number `start` on write to `dst`; segment
of hop `k` has parent `k + par`; the last chip is `z`. -/
inductive Line (t : Topology) (plane : Int) (dst : List Json) (start par : Int) :
    Int → Int → Dir → Int × Int → List Segment → Int → Prop
  | last (k a : Int) (d : Dir) (p : Int × Int) :
      Line t plane dst start par k a d p [⟨a, "NOC_1", p, none, writesAt start k dst, k + par⟩] a
  | hop {k a b : Int} {d d' : Dir} {p q p' : Int × Int} {segs : List Segment} {z : Int} :
      Moves t a d b d' → Port t a plane d' q → Port t b plane d'.inverse p' →
      Line t plane dst start par (k + 1) b d' p' segs z →
      Line t plane dst start par k a d p (⟨a, "NOC_1", p, some q, writesAt start k dst, k + par⟩ :: segs) z

/-- `Leg t plane par k a d p segs b d' p'`: hops from number `k` on that only forward, from core `p` of chip `a` to
core `p'` of chip `b`. -/
inductive Leg (t : Topology) (plane par : Int) :
    Int → Int → Dir → Int × Int → List Segment → Int → Dir → Int × Int → Prop
  | nil (k a : Int) (d : Dir) (p : Int × Int) : Leg t plane par k a d p [] a d p
  | hop {k a b c : Int} {d d' e : Dir} {p q p' r : Int × Int} {segs : List Segment} :
      Moves t a d b d' → Port t a plane d' q → Port t b plane d'.inverse p' →
      Leg t plane par (k + 1) b d' p' segs c e r →
      Leg t plane par k a d p (⟨a, "NOC_1", p, some q, none, k + par⟩ :: segs) c e r

/-- The segments on the sending chip: to the ethernet core `r`, possibly by way of a mux core. -/
def firstSegments (src : Int × Int) (dev : Int) (mux : Option Mux) (noc : String) (r : Int × Int) : List Segment :=
  match mux with
  | none => [⟨dev, noc, src, some r, none, -1⟩]
  | some m => [⟨dev, noc, src, some (m.x, m.y), none, -1⟩, ⟨dev, m.noc, (m.x, m.y), some r, none, 0⟩]

/-- The place `n` moves in direction `d` from (x, y). -/
def displaced (t : Topology) (ns ew x y : Int) (d : Dir) (n : Int) : Int × Int :=
  if Wraps t then ((x + n * (unit d).1) % ew, (y + n * (unit d).2) % ns)
  else (x + n * (unit d).1, y + n * (unit d).2)

/-- Hops of a two-dimensional unicast with first direction `d` before it turns. -/
def legHops (d : Dir) (ns e w : Int) : Int := if (d = .N ∨ d = .S) ∧ (e ≠ 0 ∨ w ≠ 0) then ns else 0

/-- The direction in which it arrives. -/
def lastDir (d : Dir) (e w : Int) : Dir :=
  if d = .N ∨ d = .S then if e ≠ 0 then .E else if w ≠ 0 then .W else d else d

/-- The hops in that direction. -/
def lastHops (d : Dir) (ns e w : Int) : Int :=
  match lastDir d e w with
  | .E => e
  | .W => w
  | _ => ns

/-! ### Timestamps -/

/-- Two timestamps in a row show a loss of synchronisation. -/
def Jump (a b : Int) : Prop := 2 * a < b ∧ 1000 < a

instance (a b : Int) : Decidable (Jump a b) := by unfold Jump; infer_instance

end NPE.Spec.Fabric
