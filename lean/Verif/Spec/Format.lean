import Verif.Model.Basic

/-
A reader for the texts of destinations, independent of the functions that print them.
-/

namespace NPE

namespace Spec

/-- An unsigned decimal number at the beginning of a text, and what follows. -/
def readNat (cs : List Char) : Option (Nat × List Char) :=
  match cs.takeWhile Char.isDigit with
  | [] => none
  | d :: ds => some (Nat.ofDigitChars 10 (d :: ds) 0, cs.dropWhile Char.isDigit)

/-- A decimal number with an optional sign. -/
def readInt (cs : List Char) : Option (Int × List Char) :=
  if cs.head? = some '-' then (readNat cs.tail).map fun p => (-(p.1 : Int), p.2)
  else (readNat cs).map fun p => ((p.1 : Int), p.2)

/-- A given text. -/
def expect (w cs : List Char) : Option (List Char) :=
  if cs.take w.length = w then some (cs.drop w.length) else none

/-- `(row,col)` -/
def readPlace (cs : List Char) : Option ((Int × Int) × List Char) := do
  let cs ← expect "(".toList cs
  let (r, cs) ← readInt cs
  let cs ← expect ",".toList cs
  let (c, cs) ← readInt cs
  let cs ← expect ")".toList cs
  return ((r, c), cs)

/-- `Dev7(row,col)` -/
def readCoord (cs : List Char) : Option (Coord × List Char) := do
  let cs ← expect "Dev".toList cs
  let (d, cs) ← readInt cs
  let ((r, c), cs) ← readPlace cs
  return (⟨d, r, c⟩, cs)

/-- Rectangles `Dev7(row,col)-(row,col)`, separated by a comma and a space; both corners are on the named
device. -/
def readGrids : Nat → List Char → Option (List CoordGrid)
  | 0, _ => none
  | fuel + 1, cs => do
    let (lo, cs) ← readCoord cs
    let cs ← expect "-".toList cs
    let ((r, c), cs) ← readPlace cs
    let g : CoordGrid := ⟨lo, ⟨lo.dev, r, c⟩⟩
    if cs = [] then return [g]
    else do
      let cs ← expect ", ".toList cs
      let gs ← readGrids fuel cs
      return g :: gs

/-- A destination: one coordinate, `(empty)` or rectangles. -/
def readDest (cs : List Char) : Option Dest :=
  if cs = "(empty)".toList then some (.mcast [])
  else match readCoord cs with
    | some (c, []) => some (.unicast c)
    | _ => (readGrids (cs.length + 1) cs).map .mcast

/-- Both corners of every rectangle are on one device. -/
def OneDeviceEach (gs : List CoordGrid) : Prop := ∀ g ∈ gs, g.hi.dev = g.lo.dev

end Spec

end NPE
