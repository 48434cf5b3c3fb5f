import Verif.Model.Write

/-
What a reader of the timeline files relies on.
-/

namespace NPE.Spec.Write

/-- A reader: decompression and parsing. -/
structure Reader where
  decompress : Bytes → Option Bytes
  parse : Bytes → Option Json

/-- What is read from the bytes of a file. -/
def Reader.read (r : Reader) (compressed : Bool) (b : Bytes) : Option Json :=
  if compressed then r.decompress b >>= r.parse else r.parse b

/-- zstd is lossless, and the bound is one. -/
structure Lossless (lib : Library) (r : Reader) : Prop where
  back : ∀ n b c, lib.compress n b = some c → r.decompress c = some b
  enough : ∀ b n, lib.bound b.length = some n → ∃ c, lib.compress n b = some c

/-- The document can be printed in both ways, and the reader understands the texts. -/
def Printed (lib : Library) (r : Reader) (j : Json) : Prop :=
  ∀ i, i = -1 ∨ i = 2 → ∃ text, lib.dump i j = some text ∧ text ≠ [] ∧ r.parse text = some j ∧
    ∃ n, lib.bound text.length = some n

/-- The file can be opened, and takes everything. -/
def Accepts (os : Os) (name : List Char) : Prop := os.opens name = true ∧ ∀ b, b.length ≤ os.takes name b

/-- The file `name` of the disk holds the document `j`. -/
def Holds (r : Reader) (compressed : Bool) (d : Disk) (name : List Char) (j : Json) : Prop :=
  ∃ b, d.files name = some b ∧ r.read compressed b = some j

end NPE.Spec.Write
