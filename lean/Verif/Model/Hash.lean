import Verif.Model.Device
import Verif.Model.Util

/-
Hash functions and equality of the keys of hash containers: include/npeUtil.hpp:160-209, 321-324 and 376-481,
include/npeDeviceTypes.hpp:32-75.  Citations relative to /repo/tt_npe/cpp.

`std::hash` of an integer is the integer converted to `size_t` (64 bits, sign extended), as in libstdc++ and
libc++.  `std::hash` of strings and doubles is a parameter.
-/

namespace NPE.Hash

/-- `size_t` -/
abbrev Word := BitVec 64

/-- `xorshift`, include/npeUtil.hpp:380-382. -/
def xorshift (n : Word) (i : Nat) : Word := n ^^^ (n >>> i)

/-- `distribute` for 64 bits, include/npeUtil.hpp:392-396. -/
def distribute (n : Word) : Word :=
  17316035218449499591#64 * xorshift (0x5555555555555555#64 * xorshift n 32) 32

/-- `std::rotl` -/
def rotl (x : Word) (r : Nat) : Word := x.rotateLeft r

/-- `hash_combine`, include/npeUtil.hpp:400-404, for a value with hash `h` (`ROTATION` is 64 / 3). -/
def combine (seed h : Word) : Word := rotl seed (64 / 3) ^^^ distribute h

/-- `hash_container`, include/npeUtil.hpp:408-414, for the hashes of the elements. -/
def container (seed : Word) (hs : List Word) : Word := hs.foldl combine seed

/-- `std::hash` of an integer. -/
def ofInt (i : Int) : Word := BitVec.ofInt 64 i

/-- `std::hash<Coord>`, include/npeUtil.hpp:421-429. -/
def coord (c : Coord) : Word :=
  combine (combine (combine 0#64 (ofInt c.dev)) (ofInt c.row)) (ofInt c.col)

/-- `std::hash<CoordGrid>`, include/npeUtil.hpp:433-440. -/
def grid (g : CoordGrid) : Word := combine (combine 0#64 (coord g.lo)) (coord g.hi)

/-- `std::hash<MulticastCoordSet>`, include/npeUtil.hpp:444-450. -/
def mcast (gs : List CoordGrid) : Word := container 0#64 (gs.map grid)

/-- Numeric values of `nocNIUType`, include/npeDeviceTypes.hpp:12-17. -/
def niuType : NIUType → Int
  | .noc0Src => 0
  | .noc0Sink => 1
  | .noc1Src => 2
  | .noc1Sink => 3

/-- `std::hash<nocLinkAttr>`, include/npeDeviceTypes.hpp:59-66. -/
def link (a : LinkAttr) : Word := combine (combine 0#64 (coord a.coord)) (ofInt a.type.toInt)

/-- `std::hash<nocNIUAttr>`, include/npeDeviceTypes.hpp:68-75. -/
def niu (a : NIUAttr) : Word := combine (combine 0#64 (coord a.coord)) (ofInt (niuType a.type))

/-- Numeric values of `ZonePhase`, include/npeUtil.hpp:314. -/
def zonePhase : ZonePhase → Int
  | .zoneStart => 0
  | .zoneEnd => 1

/-- `std::hash<npeZone>`, include/npeUtil.hpp:454-462, for hash functions of doubles and strings. -/
def zone (hd : Int → Word) (hs : String → Word) (z : Zone) : Word :=
  combine (combine (combine 0#64 (hd z.timestamp)) (hs z.zone)) (ofInt (zonePhase z.phase))

/-- `operator==` of `Coord`, include/npeUtil.hpp:165-167. -/
def eqCoord (a b : Coord) : Bool := (a.dev, a.row, a.col) == (b.dev, b.row, b.col)

/-- `operator==` of `CoordGrid`, include/npeUtil.hpp:176-184: rows and columns of the corners. -/
def eqGrid (a b : CoordGrid) : Bool :=
  (a.lo.row, a.lo.col, a.hi.row, a.hi.col) == (b.lo.row, b.lo.col, b.hi.row, b.hi.col)

/-- The loop of `operator==` of `MulticastCoordSet`, include/npeUtil.hpp:204-208. -/
def eqGrids : List CoordGrid → List CoordGrid → Bool
  | a :: as, b :: bs => eqGrid a b && eqGrids as bs
  | _, _ => true

/-- `operator==` of `MulticastCoordSet`, include/npeUtil.hpp:201-209. -/
def eqMcast (as bs : List CoordGrid) : Bool := as.length == bs.length && eqGrids as bs

/-- `operator==` of `nocLinkAttr`, include/npeDeviceTypes.hpp:35-37. -/
def eqLink (a b : LinkAttr) : Bool := eqCoord a.coord b.coord && a.type == b.type

/-- `operator==` of `nocNIUAttr`, include/npeDeviceTypes.hpp:45-47. -/
def eqNiu (a b : NIUAttr) : Bool := eqCoord a.coord b.coord && a.type == b.type

/-- `operator==` of `npeZone`, include/npeUtil.hpp:321-324. -/
def eqZone (a b : Zone) : Bool := (a.timestamp, a.zone, a.phase) == (b.timestamp, b.zone, b.phase)

end NPE.Hash
