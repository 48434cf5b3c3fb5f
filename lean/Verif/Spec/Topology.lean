import Verif.Model.Topology
import Verif.Spec.Analyze
import Verif.Spec.Fabric

/-
What a topology file says (C91, C92), and texts with comments (C93).
-/

namespace NPE.Spec.Fabric
open NPE.Fabric NPE.Spec.Analyze

/-- The contents of a topology file.  Channels: for each chip and each of its routing planes, the ethernet channel in
each direction. -/
structure Contents where
  config : String
  cluster : String
  mesh : Option (Int × (Int × Int))
  channels : List (Int × List (Int × (Dir → Option Int)))
  nodes : List (Nat × (Int × Int))
  ports : List (Nat × (Int × Int))

/-- The names of the directions in the file. -/
def letter : Dir → String
  | .N => "N"
  | .S => "S"
  | .E => "E"
  | .W => "W"

/-- An element of `mesh_shapes`. -/
def MeshIs (j : Json) (m : Int × (Int × Int)) : Prop :=
  j.field "mesh_id" = some (.int m.1) ∧ j.field "shape" = some (.arr [.int m.2.1, .int m.2.2])

/-- An element of `device_routing_planes`; a direction without channel is left out or `null`. -/
def PlaneIs (j : Json) (p : Int × (Dir → Option Int)) : Prop :=
  j.field "routing_plane_id" = some (.int p.1) ∧
  ∃ l, j.field "ethernet_channels" = some (.obj l) ∧ ∀ d, match p.2 d with
    | some c => l.lookup (letter d) = some (.int c)
    | none => l.lookup (letter d) = none ∨ l.lookup (letter d) = some .null

/-- An element of `routing_planes`. -/
def ChipIs (j : Json) (c : Int × List (Int × (Dir → Option Int))) : Prop :=
  j.field "device_id" = some (.int c.1) ∧
  ∃ l, j.field "device_routing_planes" = some (.arr l) ∧ List.Forall₂ PlaneIs l c.2

/-- A decimal digit and its value. -/
def IsDigit (c : Char) (v : Nat) : Prop := v < 10 ∧ c = Char.ofNat (48 + v)

/-- Decimal digits, with single underscores between them if wanted. -/
inductive Grouped : List Char → Nat → Prop
  | one {c : Char} {v : Nat} (h : IsDigit c v) : Grouped [c] v
  | digit {l : List Char} {n : Nat} {c : Char} {v : Nat} (hl : Grouped l n) (h : IsDigit c v) : Grouped (l ++ [c]) (10 * n + v)
  | underscore {l : List Char} {n : Nat} {c : Char} {v : Nat} (hl : Grouped l n) (h : IsDigit c v) :
      Grouped (l ++ ['_', c]) (10 * n + v)

/-- An integer with its sign. -/
inductive Signed : List Char → Int → Prop
  | plain {l : List Char} {n : Nat} (h : Grouped l n) : Signed l n
  | plus {l : List Char} {n : Nat} (h : Grouped l n) : Signed ('+' :: l) n
  | minus {l : List Char} {n : Nat} (h : Grouped l n) : Signed ('-' :: l) (-(n : Int))

/-- White space of ASCII. -/
def Blank (c : Char) : Prop := c ∈ [' ', '\t', '\n', '\r', '\x0b', '\x0c']

/-- A text that Python's `int` accepts, and its value (ASCII only). -/
def Numeral (s : List Char) (n : Int) : Prop :=
  ∃ a l b, s = a ++ l ++ b ∧ (∀ c ∈ a, Blank c) ∧ (∀ c ∈ b, Blank c) ∧ Signed l n

/-- A field of a table: the key is a decimal number. -/
def PairIs (e : String × Json) (p : Nat × (Int × Int)) : Prop :=
  Denotes e.1.toList p.1 ∧ e.2 = .arr [.int p.2.1, .int p.2.2]

/-- The file holds these contents, perhaps among other things. -/
structure Holds (j : Json) (c : Contents) : Prop where
  config : j.field "fabric_config" = some (.str c.config)
  cluster : j.field "cluster_type" = some (.str c.cluster)
  mesh : ∃ l, j.field "mesh_shapes" = some (.arr l) ∧ List.Forall₂ MeshIs l c.mesh.toList
  channels : ∃ l, j.field "routing_planes" = some (.arr l) ∧ List.Forall₂ ChipIs l c.channels
  nodes : ∃ l, j.field "device_id_to_fabric_node_id" = some (.obj l) ∧ List.Forall₂ PairIs l c.nodes
  ports : ∃ l, j.field "eth_chan_to_coord" = some (.obj l) ∧ List.Forall₂ PairIs l c.ports

/-- The channels one by one. -/
def Contents.channelList (c : Contents) : List ((Int × Int × Dir) × Int) :=
  c.channels.flatMap fun chip => chip.2.flatMap fun plane =>
    [Dir.N, .S, .E, .W].filterMap fun d => (plane.2 d).map fun n => ((chip.1, plane.1, d), n)

/-- The topology that the contents describe. -/
def Contents.topology (c : Contents) : Topology where
  meshShapes := c.mesh.toList
  fabricConfig := c.config
  clusterType := c.cluster
  planes := c.channelList
  nodes := c.nodes.map fun e => ((e.1 : Int), e.2)
  ethCoord := c.ports.map fun e => ((e.1 : Int), e.2)

/-- Nothing is said twice. -/
structure Contents.Once (c : Contents) : Prop where
  channels : (c.channelList.map (·.1)).Nodup
  nodes : (c.nodes.map (·.1)).Nodup
  ports : (c.ports.map (·.1)).Nodup

/-- The fabrics that the script knows. -/
def fabrics : List String := ["FABRIC_1D", "FABRIC_1D_RING", "FABRIC_2D", "FABRIC_2D_TORUS", "DISABLED"]

/-! ### Comments -/

/-- A piece of a commented text. -/
inductive Piece where
  | text (s : List Char)
  /-- a comment to the end of the line, with the newline -/
  | line (s : List Char)
  | block (s : List Char)

/-- How it is written. -/
def Piece.written : Piece → List Char
  | .text s => s
  | .line s => "//".toList ++ s ++ ['\n']
  | .block s => "/*".toList ++ s ++ "*/".toList

/-- What it means. -/
def Piece.meaning : Piece → List Char
  | .text s => s
  | .line _ => ['\n']
  | .block _ => []

/-- Text without slashes, comments that end where they should; a block comment holds no `//`. -/
def Piece.Plain : Piece → Prop
  | .text s => '/' ∉ s
  | .line s => '\n' ∉ s
  | .block s => ¬ "*/".toList <:+: s ∧ ¬ "//".toList <:+: s

/-- Text follows a block comment. -/
def Spaced (a b : Piece) : Prop := ∀ s, a = .block s → ∃ c t, b = .text (c :: t)

end NPE.Spec.Fabric
