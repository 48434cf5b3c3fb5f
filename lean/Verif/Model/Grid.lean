import Verif.Model.Device

/-
The containers of include/grid.hpp: two- and three-dimensional grids held in one flat vector.
Citations relative to /repo/tt_npe/cpp.
-/

namespace NPE

/-- The value of a signed integer converted to `size_t` (64 bits), as happens to the row and column of a
coordinate when they are passed to `Grid2D::operator()`, include/grid.hpp:27-36. -/
def sizeT (n : Int) : Nat := (n % 2 ^ 64).toNat

/-- How the program was built: `assert` does nothing in release builds (`NDEBUG`; the default of
/repo/CMakeLists.txt:93-95 and /repo/build-npe.sh:18) and ends the process in debug builds. -/
inductive Build where
  | release
  | debug
  deriving DecidableEq, Repr

/-- `Grid2D<T>`, include/grid.hpp:11-16. -/
structure Grid2 (α : Type) where
  data : List α
  rows : Nat
  cols : Nat
  deriving DecidableEq, Repr

/-- `Grid2D(num_rows, num_cols, default_value)`, include/grid.hpp:20-21.  The product is one of `size_t`.
Simplified: the memory is always available. -/
def Grid2.make {α : Type} (rows cols : Nat) (v : α) : Grid2 α := ⟨List.replicate (rows * cols % 2 ^ 64) v, rows, cols⟩

/-- `Grid2D::inBounds`, include/grid.hpp:24. -/
def Grid2.inBounds {α : Type} (g : Grid2 α) (row col : Nat) : Bool := decide (row < g.rows) && decide (col < g.cols)

/-- The index computed by `Grid2D::operator()`, include/grid.hpp:29 and 35. -/
def Grid2.index {α : Type} (g : Grid2 α) (row col : Nat) : Nat := (row * g.cols + col) % 2 ^ 64

/-- Reading through `Grid2D::operator()`, include/grid.hpp:33-36.  A failing `assert` ends the process
(`abort`, shown as `.exit`); an index outside of the vector is undefined behaviour. -/
def Grid2.read {α : Type} (b : Build) (g : Grid2 α) (row col : Nat) : Out α :=
  if b = .debug ∧ g.inBounds row col = false then .exit
  else match g.data[g.index row col]? with
    | some v => .ok v
    | none => .ub

/-- Assigning through `Grid2D::operator()`, include/grid.hpp:27-30. -/
def Grid2.write {α : Type} (b : Build) (g : Grid2 α) (row col : Nat) (v : α) : Out (Grid2 α) :=
  if b = .debug ∧ g.inBounds row col = false then .exit
  else if g.index row col < g.data.length then .ok { g with data := g.data.set (g.index row col) v }
  else .ub

/-- `Grid2D::reset`, include/grid.hpp:37. -/
def Grid2.reset {α : Type} (g : Grid2 α) (v : α) : Grid2 α := { g with data := g.data.map fun _ => v }

/-- `Grid2D::size`, include/grid.hpp:42. -/
def Grid2.size {α : Type} (g : Grid2 α) : Nat := g.rows * g.cols % 2 ^ 64

/-- `Grid3D<T>`, include/grid.hpp:51-58. -/
structure Grid3 (α : Type) where
  data : List α
  rows : Nat
  cols : Nat
  items : Nat
  rowSize : Nat
  deriving DecidableEq, Repr

/-- `Grid3D(num_rows, num_cols, num_items, default_value)`, include/grid.hpp:63-69.  Simplified: the memory
is always available. -/
def Grid3.make {α : Type} (rows cols items : Nat) (v : α) : Grid3 α :=
  ⟨List.replicate (rows * cols * items % 2 ^ 64) v, rows, cols, items, cols * items % 2 ^ 64⟩

/-- `Grid3D::inBounds`, include/grid.hpp:72-74. -/
def Grid3.inBounds {α : Type} (g : Grid3 α) (row col item : Nat) : Bool :=
  decide (row < g.rows) && decide (col < g.cols) && decide (item < g.items)

/-- The index computed by `Grid3D::operator()`, include/grid.hpp:79 and 85. -/
def Grid3.index {α : Type} (g : Grid3 α) (row col item : Nat) : Nat :=
  (row * g.rowSize + col * g.items + item) % 2 ^ 64

/-- Reading through `Grid3D::operator()`, include/grid.hpp:83-86. -/
def Grid3.read {α : Type} (b : Build) (g : Grid3 α) (row col item : Nat) : Out α :=
  if b = .debug ∧ g.inBounds row col item = false then .exit
  else match g.data[g.index row col item]? with
    | some v => .ok v
    | none => .ub

/-- Assigning through `Grid3D::operator()`, include/grid.hpp:77-80. -/
def Grid3.write {α : Type} (b : Build) (g : Grid3 α) (row col item : Nat) (v : α) : Out (Grid3 α) :=
  if b = .debug ∧ g.inBounds row col item = false then .exit
  else if g.index row col item < g.data.length then .ok { g with data := g.data.set (g.index row col item) v }
  else .ub

/-- `Grid3D::reset`, include/grid.hpp:87. -/
def Grid3.reset {α : Type} (g : Grid3 α) (v : α) : Grid3 α := { g with data := g.data.map fun _ => v }

/-- `Grid3D::size`, include/grid.hpp:93. -/
def Grid3.size {α : Type} (g : Grid3 α) : Nat := g.rows * g.cols * g.items % 2 ^ 64

/-- The constructors of the device models fill the grid of core types from a hash table, whose order is
not known: include/device_models/wormhole_b0.hpp:19-22, blackhole.hpp:24-27.  `es` holds the entries in the
order of the loop; the value before is that of `CoreType()`, the first of the enumeration
(include/npeCommon.hpp:31-36). -/
def fillCores (b : Build) (rows cols : Nat) (es : List (Coord × CoreType)) : Out (Grid2 CoreType) :=
  Out.foldlM (fun g e => g.write b (sizeT e.1.row) (sizeT e.1.col) e.2) (Grid2.make rows cols .undef) es

end NPE
