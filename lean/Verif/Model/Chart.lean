import Verif.Model.Rounding
import Verif.Model.Basic
import Mathlib.Algebra.Order.Floor.Ring
import Mathlib.Data.Rat.Floor

/-
Model of `displayBarChart` (tt_npe/cpp/include/npeChart.hpp).

The picture is a table of cells; the values that are printed as labels are kept as numbers.

Simplified: the sizes are natural numbers (a negative size throws `std::length_error`); a
difference of two `int`s does not overflow; the text of the labels and the colours are left out.
-/

namespace NPE

namespace Chart

/-- The value types of the ranges (npeChart.hpp:18-20, `std::is_arithmetic_v`). -/
inductive Num where
  | int
  | f32
  | f64
  deriving DecidableEq, Repr

/-- Conversion of a number to an integer: towards zero. -/
def trunc (q : ℚ) : ℤ := if 0 ≤ q then ⌊q⌋ else ⌈q⌉

/-- The result has to fit into an `int`, otherwise the conversion or the operation is undefined. -/
def toInt (z : ℤ) : Out ℤ := if -2147483648 ≤ z ∧ z < 2147483648 then .ok z else .ub

/-- Rounding of an operation of a value of the type with a `float`. -/
def Num.fl (fp : FP) : Num → ℚ → ℚ
  | int => fp.f32.fl
  | f32 => fp.f32.fl
  | f64 => fp.f64.fl

/-- Conversion to the type in an assignment. -/
def Num.store (fp : FP) : Num → ℚ → ℚ
  | int => fun q => trunc q
  | f32 => fp.f32.fl
  | f64 => fp.f64.fl

/-- `a - b` for two values of the type. -/
def Num.sub (fp : FP) : Num → ℚ → ℚ → ℚ
  | int => fun a b => a - b
  | f32 => fun a b => fp.f32.fl (a - b)
  | f64 => fun a b => fp.f64.fl (a - b)

/-- The smallest and the largest value on an axis. -/
structure Span where
  lo : ℚ
  hi : ℚ
  deriving DecidableEq, Repr

/-- npeChart.hpp:39-56: smallest and largest value, made different and moved apart by 5% each. -/
def span (fp : FP) (k : Num) (v : ℚ) (vs : List ℚ) : Span :=
  let lo := vs.foldl min v
  let hi := vs.foldl max v
  let hi := if lo = hi then k.store fp (fp.f64.fl (lo + 1)) else hi
  let margin := fp.f32.fl (k.fl fp (k.fl fp (k.sub fp hi lo) * fp.f32.fl (1 / 20)))
  ⟨k.store fp (k.fl fp (k.fl fp lo - margin)), k.store fp (k.fl fp (k.fl fp hi + margin))⟩

/-- npeChart.hpp:62-63: `static_cast<int>((0 - lo) / (hi - lo) * (n - 1))`.  For integers the
division is one of integers. -/
def zeroAt (fp : FP) (k : Num) (s : Span) (n : ℕ) : Out ℤ :=
  if k.sub fp s.hi s.lo = 0 then .ub
  else match k with
    | .int => toInt (trunc ((0 - s.lo) / (s.hi - s.lo)) * (n - 1))
    | k => toInt (trunc (k.fl fp (k.fl fp (k.sub fp 0 s.lo / k.sub fp s.hi s.lo) * k.fl fp (n - 1))))

/-- npeChart.hpp:90-96: `static_cast<int>((v - lo) / (hi - lo) * (n - 1))` for a `float v`. -/
def place (fp : FP) (k : Num) (s : Span) (n : ℕ) (v : ℚ) : Out ℤ :=
  if k.sub fp s.hi s.lo = 0 then .ub
  else toInt (trunc (k.fl fp (k.fl fp (k.fl fp (fp.f32.fl v - k.fl fp s.lo) / k.fl fp (k.sub fp s.hi s.lo)) *
    k.fl fp (n - 1))))

/-- The strings in the grid. -/
inductive Cell where
  | blank
  | hline
  | vline
  | origin
  | bar
  deriving DecidableEq, Repr

/-- `grid`, npeChart.hpp:59. -/
structure Canvas where
  rows : ℕ
  cols : ℕ
  cell : ℤ → ℤ → Cell

/-- `grid[r][c] = v`: undefined outside of the vectors. -/
def Canvas.write (g : Canvas) (r c : ℤ) (v : Cell) : Out Canvas :=
  if 0 ≤ r ∧ r < g.rows ∧ 0 ≤ c ∧ c < g.cols then
    .ok { g with cell := fun r' c' => if r' = r ∧ c' = c then v else g.cell r' c' }
  else .ub

/-- `std::clamp(v, 0, n - 1)`: undefined for `n = 0`. -/
def clamp (v : ℤ) (n : ℕ) : Out ℤ := if n = 0 then .ub else .ok (min (max v 0) (n - 1))

/-- npeChart.hpp:70-82: the axes and the origin. -/
def axes (g : Canvas) (ar ac : ℤ) : Out Canvas := do
  let g ← Out.foldlM (fun g (c : ℕ) => if 0 ≤ ar ∧ ar < g.rows then g.write ar c .hline else .ok g) g
    (List.range g.cols)
  let g ← Out.foldlM (fun g (r : ℕ) => if 0 ≤ ac ∧ ac < g.cols then g.write r ac .vline else .ok g) g
    (List.range g.rows)
  if 0 ≤ ar ∧ ar < g.rows ∧ 0 ≤ ac ∧ ac < g.cols then g.write ar ac .origin else .ok g

/-- npeChart.hpp:98-117: the bar of one point. -/
def bar (g : Canvas) (ar col height : ℤ) : Out Canvas := do
  let start : ℤ := if 0 ≤ ar ∧ ar < g.rows then ar else g.rows - 1
  let e ← toInt (g.rows - 1 - height)
  let e := max 0 e
  if 0 ≤ col ∧ col < g.cols then
    Out.foldlM (fun g (i : ℕ) =>
      if 0 ≤ start - 1 - i ∧ start - 1 - i < g.rows then g.write (start - 1 - i) col .bar else .ok g) g
      (List.range (start - e).toNat)
  else .ok g

/-- What is shown: the grid, the row of the x axis, and the labels. -/
structure Picture where
  grid : Canvas
  axisRow : ℤ
  axisCol : ℤ
  x : Span
  y : Span

/-- `displayBarChart`, npeChart.hpp:21-171; `none`: the message that the sizes differ. -/
def display (fp : FP) (kx ky : Num) (xs ys : List ℚ) (width height : ℕ) : Out (Option Picture) :=
  if xs.length ≠ ys.length then .ok none
  else match xs, ys with
    | x :: xs', y :: ys' => do
      let sx := span fp kx x xs'
      let sy := span fp ky y ys'
      let a ← zeroAt fp ky sy height
      let ar ← toInt (height - 1 - a)
      let ac ← zeroAt fp kx sx width
      let ar ← clamp ar height
      let ac ← clamp ac width
      let g ← axes ⟨height, width, fun _ _ => .blank⟩ ar ac
      let g ← Out.foldlM (fun g p => do
        let col ← place fp kx sx width p.1
        let h ← place fp ky sy height p.2
        bar g ar col h) g ((x :: xs').zip (y :: ys'))
      .ok (some ⟨g, ar, ac, sx, sy⟩)
    | _, _ => .ub

end Chart

end NPE
