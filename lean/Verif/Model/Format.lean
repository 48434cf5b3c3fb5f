import Verif.Model.Util

/-
Texts of coordinates and destinations: the `fmt::formatter` specialisations of
include/npeUtil.hpp:487-540.  Citations relative to /repo/tt_npe/cpp.
-/

namespace NPE.Format

/-- `{}` of an integer: decimal digits without leading zeros, `-` in front of a negative number (library `fmt`,
used in include/npeUtil.hpp:493 and 512-514). -/
def int : Int → List Char
  | .ofNat n => Nat.toDigits 10 n
  | .negSucc n => '-' :: Nat.toDigits 10 (n + 1)

/-- `({},{})` -/
def place (row col : Int) : List Char := '(' :: int row ++ ',' :: int col ++ [')']

/-- `formatter<Coord>`, include/npeUtil.hpp:487-495: `Dev{}({},{})`. -/
def coord (c : Coord) : List Char := 'D' :: 'e' :: 'v' :: int c.dev ++ place c.row c.col

/-- One rectangle, include/npeUtil.hpp:508-514: `Dev{}({},{})-({},{})`; the device is the one of the first corner
(line 510). -/
def grid (g : CoordGrid) : List Char := coord g.lo ++ '-' :: place g.hi.row g.hi.col

/-- The loop over the rectangles, include/npeUtil.hpp:508-520. -/
def grids : List CoordGrid → List Char
  | [] => []
  | [g] => grid g
  | g :: h :: gs => grid g ++ ',' :: ' ' :: grids (h :: gs)

/-- `formatter<MulticastCoordSet>`, include/npeUtil.hpp:497-523. -/
def mcast : List CoordGrid → List Char
  | [] => ['(', 'e', 'm', 'p', 't', 'y', ')']
  | g :: gs => grids (g :: gs)

/-- `formatter<NocDestination>`, include/npeUtil.hpp:525-540. -/
def dest : Dest → List Char
  | .unicast c => coord c
  | .mcast gs => mcast gs

end NPE.Format
