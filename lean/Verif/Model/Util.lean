import Verif.Model.Basic

/-
Helpers from include/npeUtil.hpp.  Citations relative to /repo/tt_npe/cpp.
-/

namespace NPE

/-- `wrapToRange`, include/npeUtil.hpp:88-90.  C++ `%` truncates towards zero (`Int.tmod`).
A zero range divides by zero (undefined behaviour); callers pass grid dimensions, which are
positive. -/
def wrapToRange (number range : Int) : Int := (number.tmod range + range).tmod range

/-- `modulo`, include/npeUtil.hpp:92-96. -/
def modulo (n modulus : Int) : Int :=
  let result := n.tmod modulus
  if result < 0 then result + modulus else result

/-- `std::unique`: drops every element equal to its predecessor. -/
def uniqueAdj {α : Type} [DecidableEq α] : List α → List α
  | [] => []
  | [a] => [a]
  | a :: b :: l => if a = b then uniqueAdj (b :: l) else a :: uniqueAdj (b :: l)

/-- Insert into a list sorted by `le`, before the first element that is not smaller. -/
def insertSorted {α : Type} (le : α → α → Bool) (a : α) : List α → List α
  | [] => [a]
  | b :: l => if le a b then a :: b :: l else b :: insertSorted le a l

/-- `std::sort` / `std::stable_sort` with the order `le` (stable: equal elements keep their
order).  Only the result matters, so an insertion sort is used. -/
def sortBy {α : Type} (le : α → α → Bool) : List α → List α
  | [] => []
  | a :: l => insertSorted le a (sortBy le l)

/-- `uniquify`, include/npeUtil.hpp:154-160: sort, then drop adjacent duplicates. -/
def uniquify (l : List Int) : List Int := uniqueAdj (sortBy (fun a b => a ≤ b) l)

/-- `MulticastCoordSet(start, end)`, include/npeUtil.hpp:190-196. -/
def mkMcast (start stop : Coord) : Out (List CoordGrid) := do
  Out.assert (start.dev = stop.dev)
  Out.assert (start.row ≤ stop.row || start.col ≤ stop.col)
  return [⟨start, stop⟩]

/-- `MulticastCoordSet::iterator`, include/npeUtil.hpp:223-278: current position and index of
the current grid. -/
structure McastIter where
  pos : Coord
  idx : Nat
  deriving DecidableEq, Repr

/-- Iterator constructor, include/npeUtil.hpp:224-232. -/
def McastIter.mk' (gs : List CoordGrid) (c : Coord) (idx : Nat) : McastIter :=
  match gs[idx]? with
  | none => ⟨c, idx⟩
  | some g => ⟨g.lo, idx⟩

/-- `end()`, include/npeUtil.hpp:287-290. -/
def mcastEnd (gs : List CoordGrid) : McastIter := .mk' gs Coord.default gs.length

/-- `begin()`, include/npeUtil.hpp:280-284. -/
def mcastBegin (gs : List CoordGrid) : McastIter :=
  match gs with
  | [] => mcastEnd gs
  | g :: _ => .mk' gs g.lo 0

/-- `operator++`, include/npeUtil.hpp:234-261.  Row and column are 16-bit. -/
def McastIter.next (gs : List CoordGrid) (it : McastIter) : McastIter :=
  match gs[it.idx]? with
  | none => it
  | some g =>
    if it.pos.col < g.hi.col then
      { it with pos := { it.pos with col := toI16 (it.pos.col + 1) } }
    else
      let pos : Coord := { it.pos with col := g.lo.col, row := toI16 (it.pos.row + 1) }
      if pos.row > g.hi.row then
        match gs[it.idx + 1]? with
        | some g' => ⟨g'.lo, it.idx + 1⟩
        | none => ⟨pos, it.idx + 1⟩
      else { it with pos := pos }

/-- `operator!=`, include/npeUtil.hpp:262-270. -/
def McastIter.ne (gs : List CoordGrid) (a b : McastIter) : Bool :=
  if a.idx ≥ gs.length || b.idx ≥ gs.length then a.idx != b.idx
  else decide (a.pos ≠ b.pos)

/-- The range-based `for (auto c : mcast)` loop: collects the visited coordinates.
`fuel` bounds the number of iterations; running out of it is reported as non-termination. -/
def mcastCollect (gs : List CoordGrid) : Nat → McastIter → Out (List Coord)
  | 0, _ => .diverge
  | fuel + 1, it =>
    if it.ne gs (mcastEnd gs) then
      mcastCollect gs fuel (it.next gs) >>= fun rest => .ok (it.pos :: rest)
    else .ok []

/-- Number of iterations that suffices for every grid whose rows stay below the 16-bit limit
(theorem `mcastCollect_eq`). -/
def mcastFuel (gs : List CoordGrid) : Nat :=
  gs.foldr (fun g n =>
    ((max g.lo.row g.hi.row - g.lo.row + 1) * (max g.lo.col g.hi.col - g.lo.col + 1)).toNat + n) 1

/-- All coordinates visited by iterating over a multicast destination. -/
def mcastCoords (gs : List CoordGrid) : Out (List Coord) :=
  mcastCollect gs (mcastFuel gs) (mcastBegin gs)

/-- `grid_size()`, include/npeUtil.hpp:292-299: `int` products added to a `size_t`. -/
def mcastGridSize (gs : List CoordGrid) : Nat :=
  gs.foldl (fun total g =>
    (((total : Int) + (g.hi.row - g.lo.row + 1) * (g.hi.col - g.lo.col + 1)) %
      18446744073709551616).toNat) 0

/-- `ZonePhase`, include/npeUtil.hpp:314. -/
inductive ZonePhase where
  | zoneStart
  | zoneEnd
  deriving DecidableEq, Repr

/-- `npeZone`, include/npeUtil.hpp:316-325.  The timestamp is a `double` in C++; traces carry
integers, so it is an integer here. -/
structure Zone where
  timestamp : Int
  zone : String
  phase : ZonePhase
  deriving DecidableEq, Repr

/-- `ZoneIterator`, include/npeUtil.hpp:329-373.  `stack` is `enclosing_zones` (outermost
first), `counts` is `zone_counts` (`operator[]` defaults to 0). -/
structure ZoneIter where
  idx : Nat
  stack : List (Zone × Nat)
  counts : String → Nat

/-- Constructor, include/npeUtil.hpp:335. -/
def ZoneIter.init : ZoneIter := ⟨0, [], fun _ => 0⟩

/-- `operator++`, include/npeUtil.hpp:338-357. -/
def ZoneIter.next (zs : List Zone) (it : ZoneIter) : Out ZoneIter :=
  match zs[it.idx]? with
  | none => .ok it
  | some z =>
    match z.phase with
    | .zoneStart =>
      .ok { idx := it.idx + 1
            stack := it.stack ++ [(z, it.counts z.zone)]
            counts := fun s => if s = z.zone then it.counts s + 1 else it.counts s }
    | .zoneEnd =>
      match it.stack.getLast? with
      | some top =>
        if z.zone = top.1.zone then
          .ok { it with idx := it.idx + 1, stack := it.stack.dropLast }
        else .exc .undef
      | none => .exc .undef

/-- `isEnd`, include/npeUtil.hpp:370-372. -/
def ZoneIter.isEnd (zs : List Zone) (it : ZoneIter) : Bool := it.idx == zs.length

end NPE
