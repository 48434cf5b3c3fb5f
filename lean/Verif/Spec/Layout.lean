import Verif.Model.Device

/-
Positions of the cores according to the layout files /repo/tt_npe/data/device/layout/arch-wormhole.yaml and
arch-blackhole.yaml, which are written independently of the tables of the device models.  A position is written `x-y`:
column and row.
-/

namespace NPE.Spec

/-- The lists of a layout file, as pairs (x, y). -/
structure Layout where
  x : Nat
  y : Nat
  arc : List (Nat × Nat)
  pcie : List (Nat × Nat)
  dram : List (Nat × Nat)
  eth : List (Nat × Nat)
  workers : List (Nat × Nat)
  routers : List (Nat × Nat)

/-- What a layout file says about a core: positions without memory controllers, Ethernet and workers have no type. -/
inductive Layout.Says (l : Layout) (x y : Nat) : CoreType → Prop
  | dram (h : (x, y) ∈ l.dram) : Says l x y .dram
  | eth (h : (x, y) ∈ l.eth) : Says l x y .eth
  | worker (h : (x, y) ∈ l.workers) : Says l x y .worker
  | none (h : (x, y) ∈ l.arc ∨ (x, y) ∈ l.pcie ∨ (x, y) ∈ l.routers) : Says l x y .undef

/-- All positions that a layout file mentions. -/
def Layout.all (l : Layout) : List (Nat × Nat) := l.arc ++ l.pcie ++ l.dram ++ l.eth ++ l.workers ++ l.routers

/-- data/device/layout/arch-wormhole.yaml:6-46. -/
def wormholeLayout : Layout where
  x := 10
  y := 12
  arc := [(0, 10)]
  pcie := [(0, 3)]
  dram :=
    [(0, 0), (0, 1), (0, 11), (0, 5), (0, 6), (0, 7), (5, 0), (5, 1), (5, 11), (5, 2), (5, 9), (5, 10), (5, 3),
     (5, 4), (5, 8), (5, 5), (5, 6), (5, 7)]
  eth :=
    [(9, 0), (1, 0), (8, 0), (2, 0), (7, 0), (3, 0), (6, 0), (4, 0), (9, 6), (1, 6), (8, 6), (2, 6), (7, 6), (3, 6),
     (6, 6), (4, 6)]
  workers :=
    [(1, 1), (2, 1), (3, 1), (4, 1), (6, 1), (7, 1), (8, 1), (9, 1), (1, 2), (2, 2), (3, 2), (4, 2), (6, 2), (7, 2),
     (8, 2), (9, 2), (1, 3), (2, 3), (3, 3), (4, 3), (6, 3), (7, 3), (8, 3), (9, 3), (1, 4), (2, 4), (3, 4), (4, 4),
     (6, 4), (7, 4), (8, 4), (9, 4), (1, 5), (2, 5), (3, 5), (4, 5), (6, 5), (7, 5), (8, 5), (9, 5), (1, 7), (2, 7),
     (3, 7), (4, 7), (6, 7), (7, 7), (8, 7), (9, 7), (1, 8), (2, 8), (3, 8), (4, 8), (6, 8), (7, 8), (8, 8), (9, 8),
     (1, 9), (2, 9), (3, 9), (4, 9), (6, 9), (7, 9), (8, 9), (9, 9), (1, 10), (2, 10), (3, 10), (4, 10), (6, 10),
     (7, 10), (8, 10), (9, 10), (1, 11), (2, 11), (3, 11), (4, 11), (6, 11), (7, 11), (8, 11), (9, 11)]
  routers :=
    [(0, 2), (0, 4), (0, 8), (0, 9)]

/-- data/device/layout/arch-blackhole.yaml:4-70. -/
def blackholeLayout : Layout where
  x := 17
  y := 12
  arc := [(8, 0)]
  pcie := [(2, 0), (11, 0)]
  dram :=
    [(0, 0), (0, 1), (0, 11), (0, 2), (0, 3), (0, 10), (0, 4), (0, 8), (0, 9), (0, 5), (0, 6), (0, 7), (9, 0),
     (9, 1), (9, 11), (9, 2), (9, 3), (9, 10), (9, 4), (9, 8), (9, 9), (9, 5), (9, 6), (9, 7)]
  eth :=
    [(1, 1), (2, 1), (3, 1), (4, 1), (5, 1), (6, 1), (7, 1), (10, 1), (11, 1), (12, 1), (13, 1), (14, 1), (15, 1),
     (16, 1)]
  workers :=
    [(1, 2), (1, 3), (1, 4), (1, 5), (1, 6), (1, 7), (1, 8), (1, 9), (1, 10), (1, 11), (2, 2), (2, 3), (2, 4),
     (2, 5), (2, 6), (2, 7), (2, 8), (2, 9), (2, 10), (2, 11), (3, 2), (3, 3), (3, 4), (3, 5), (3, 6), (3, 7),
     (3, 8), (3, 9), (3, 10), (3, 11), (4, 2), (4, 3), (4, 4), (4, 5), (4, 6), (4, 7), (4, 8), (4, 9), (4, 10),
     (4, 11), (5, 2), (5, 3), (5, 4), (5, 5), (5, 6), (5, 7), (5, 8), (5, 9), (5, 10), (5, 11), (6, 2), (6, 3),
     (6, 4), (6, 5), (6, 6), (6, 7), (6, 8), (6, 9), (6, 10), (6, 11), (7, 2), (7, 3), (7, 4), (7, 5), (7, 6),
     (7, 7), (7, 8), (7, 9), (7, 10), (7, 11), (10, 2), (10, 3), (10, 4), (10, 5), (10, 6), (10, 7), (10, 8),
     (10, 9), (10, 10), (10, 11), (11, 2), (11, 3), (11, 4), (11, 5), (11, 6), (11, 7), (11, 8), (11, 9), (11, 10),
     (11, 11), (12, 2), (12, 3), (12, 4), (12, 5), (12, 6), (12, 7), (12, 8), (12, 9), (12, 10), (12, 11), (13, 2),
     (13, 3), (13, 4), (13, 5), (13, 6), (13, 7), (13, 8), (13, 9), (13, 10), (13, 11), (14, 2), (14, 3), (14, 4),
     (14, 5), (14, 6), (14, 7), (14, 8), (14, 9), (14, 10), (14, 11), (15, 2), (15, 3), (15, 4), (15, 5), (15, 6),
     (15, 7), (15, 8), (15, 9), (15, 10), (15, 11), (16, 2), (16, 3), (16, 4), (16, 5), (16, 6), (16, 7), (16, 8),
     (16, 9), (16, 10), (16, 11)]
  routers :=
    [(1, 0), (3, 0), (4, 0), (5, 0), (6, 0), (7, 0), (10, 0), (12, 0), (13, 0), (14, 0), (15, 0), (16, 0), (8, 1),
     (8, 2), (8, 3), (8, 4), (8, 5), (8, 6), (8, 7), (8, 8), (8, 9), (8, 10), (8, 11)]

end NPE.Spec
