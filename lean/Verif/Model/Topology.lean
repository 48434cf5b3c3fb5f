import Verif.Model.Fabric

/-
Loading of a topology file by the fabric script: `strip_comments` and `TopologyGraph.__init__`,
py/util/fabric_post_process.py:16-22 and 49-136 (citations relative to /repo/tt_npe).

Simplifications: the parser of JSON is not modelled, its result is a value in which the keys of an object are
distinct; a value that is used as a number but is not an integer is a `TypeError` right away (Python stores it and
raises an error when it is used, if ever); `int(s)` is modelled for ASCII; the dictionaries are built after all
entries have been read, since an error discards them anyway.
-/

namespace NPE.Fabric
open NPE.Out

/-! ### Comments -/

/-- `re.sub(r"//.*$", "", s, flags=re.MULTILINE)`, py/util/fabric_post_process.py:19; `skip` says that a comment has
begun on this line. -/
def dropLineComments (skip : Bool) : List Char → List Char
  | [] => []
  | '\n' :: l => '\n' :: dropLineComments false l
  | c :: l =>
    if skip then dropLineComments true l
    else if c = '/' ∧ l.head? = some '/' then dropLineComments true l
    else c :: dropLineComments false l

/-- The text after the first `*/`, if there is one. -/
def afterClose : List Char → Option (List Char)
  | [] => none
  | '*' :: '/' :: l => some l
  | _ :: l => afterClose l

theorem afterClose_length {l r : List Char} (h : afterClose l = some r) : r.length < l.length := by
  fun_induction afterClose l with
  | case1 => cases h
  | case2 l => rw [← Option.some.inj h]; simp only [List.length_cons]; omega
  | case3 c l _ ih => have := ih h; simp only [List.length_cons]; omega

/-- `re.sub(r"/\*.*?\*/", "", s, flags=re.DOTALL)`, py/util/fabric_post_process.py:21. -/
def dropBlockComments : List Char → List Char
  | [] => []
  | '/' :: '*' :: l =>
    match h : afterClose l with
    | some r => dropBlockComments r
    | none => '/' :: dropBlockComments ('*' :: l)
  | c :: l => c :: dropBlockComments l
termination_by l => l.length
decreasing_by
  · have := afterClose_length h; simp only [List.length_cons]; omega
  · simp only [List.length_cons]; omega
  · simp only [List.length_cons]; omega

/-- `strip_comments`, py/util/fabric_post_process.py:16-22. -/
def stripComments (s : List Char) : List Char := dropBlockComments (dropLineComments false s)

/-! ### Values -/

/-- `d[k] = v` for a dictionary with entries in the order of insertion. -/
def setDict {κ α : Type} [DecidableEq κ] (k : κ) (v : α) : List (κ × α) → List (κ × α)
  | [] => [(k, v)]
  | e :: l => if e.1 = k then (e.1, v) :: l else e :: setDict k v l

/-- A dictionary after assignments in this order. -/
def buildDict {κ α : Type} [DecidableEq κ] (l : List (κ × α)) : List (κ × α) :=
  l.foldl (fun m e => setDict e.1 e.2 m) []

/-- `x.get(k)`; anything but a dictionary has no such attribute. -/
def pyGet (j : Json) (k : String) : Out (Option Json) :=
  match j with
  | .obj l => .ok (l.lookup k)
  | _ => .std .pyAttribute

/-- What a loop over `x.get(k, [])` runs over: elements of a list, keys of a dictionary, characters of a string. -/
def iterate : Option Json → Out (List Json)
  | none => .ok []
  | some (.arr l) => .ok l
  | some (.obj l) => .ok (l.map fun e => .str e.1)
  | some (.str s) => .ok (s.toList.map fun c => .str (String.ofList [c]))
  | some _ => .std .pyType

/-- A value that is used as a number (see the simplifications). -/
def number : Option Json → Out Int
  | some (.int n) => .ok n
  | _ => .std .pyType

/-- A value that must not be `None`. -/
def present : Option Json → Out Json
  | none => .std .pyProcessing
  | some .null => .std .pyProcessing
  | some v => .ok v

/-- White space that `int` ignores at both ends. -/
def isSpace (c : Char) : Bool := c = ' ' || c = '\t' || c = '\n' || c = '\r' || c = '\x0b' || c = '\x0c'

/-- The digits of `int(s)`: single underscores may stand between digits. -/
def pyDigits : Nat → Bool → List Char → Option Nat
  | acc, afterDigit, [] => if afterDigit then some acc else none
  | acc, afterDigit, c :: l =>
    if c.isDigit then pyDigits (10 * acc + (c.toNat - 48)) true l
    else if c = '_' ∧ afterDigit then pyDigits acc false l
    else none

/-- The sign and the digits of `int(s)`. -/
def pySigned : List Char → Option Int
  | '-' :: l => (pyDigits 0 false l).map fun (n : Nat) => -(n : Int)
  | '+' :: l => (pyDigits 0 false l).map fun (n : Nat) => (n : Int)
  | l => (pyDigits 0 false l).map fun (n : Nat) => (n : Int)

/-- `int(s)`; `none` is a `ValueError`. -/
def pyInt (s : List Char) : Option Int :=
  pySigned ((s.dropWhile isSpace).reverse.dropWhile isSpace).reverse

/-! ### The constructor -/

/-- Names of the directions. -/
def Dir.name : Dir → String
  | .N => "N"
  | .S => "S"
  | .E => "E"
  | .W => "W"

/-- Body of the loop over `mesh_shapes`, py/util/fabric_post_process.py:65-71. -/
def meshEntry (e : Json) : Out (Int × (Int × Int)) :=
  pyGet e "mesh_id" >>= fun m =>
  pyGet e "shape" >>= fun s =>
  match s with
  | some (.arr [a, b]) =>
    number m >>= fun m => number (some a) >>= fun a => number (some b) >>= fun b => .ok (m, (a, b))
  | _ => .std .pyProcessing

/-- Body of the loop over the directions, py/util/fabric_post_process.py:97-100. -/
def channelEntry (dev plane : Int) (p : Json) (d : Dir) : Out (Option ((Int × Int × Dir) × Int)) :=
  pyGet p "ethernet_channels" >>= fun c =>
  pyGet (c.getD .null) d.name >>= fun v =>
  match v with
  | none => .ok none
  | some .null => .ok none
  | some v => number (some v) >>= fun n => .ok (some ((dev, plane, d), n))

/-- Body of the loop over `device_routing_planes`, py/util/fabric_post_process.py:91-100. -/
def planeEntry (dev : Int) (p : Json) : Out (List ((Int × Int × Dir) × Int)) :=
  pyGet p "routing_plane_id" >>= present >>= fun v =>
  number (some v) >>= fun plane =>
  Out.mapM (channelEntry dev plane p) [.N, .S, .E, .W] >>= fun l =>
  .ok (l.filterMap id)

/-- Body of the loop over `routing_planes`, py/util/fabric_post_process.py:85-100. -/
def deviceEntry (e : Json) : Out (List ((Int × Int × Dir) × Int)) :=
  pyGet e "device_id" >>= present >>= fun v =>
  number (some v) >>= fun dev =>
  pyGet e "device_routing_planes" >>= iterate >>= fun ps =>
  Out.mapM (planeEntry dev) ps >>= fun l =>
  .ok l.flatten

/-- Body of the loops over `device_id_to_fabric_node_id` and `eth_chan_to_coord`,
py/util/fabric_post_process.py:105-114 and 122-130. -/
def pairEntry (e : String × Json) : Out (Int × (Int × Int)) :=
  match pyInt e.1.toList, e.2 with
  | some k, .arr [a, b] => number (some a) >>= fun a => number (some b) >>= fun b => .ok (k, (a, b))
  | _, _ => .std .pyProcessing

/-- Both tables of pairs, py/util/fabric_post_process.py:103-116 and 120-132. -/
def pairEntries : Option Json → Out (List (Int × (Int × Int)))
  | none => .ok []
  | some (.obj l) => Out.mapM pairEntry l
  | some _ => .std .pyProcessing

/-- `fabric_config` as compared with the supported names; other values are refused. -/
def configName : Option Json → String
  | some (.str s) => s
  | _ => "UNKNOWN"

/-- The supported names, py/util/fabric_post_process.py:73-76. -/
def supported (s : String) : Bool :=
  s = "FABRIC_1D" || s = "FABRIC_1D_RING" || s = "FABRIC_2D" || s = "FABRIC_2D_TORUS" || s = "DISABLED"

/-- `cluster_type`, which is only compared with `"T3K"` in this script. -/
def clusterName : Json → String
  | .str s => s
  | _ => ""

/-- The attributes that the constructor fills. -/
structure Loaded where
  topo : Topology
  /-- `fabric_node_id_to_device_id` -/
  devices : List ((Int × Int) × Int)

/-- The second half of the constructor, py/util/fabric_post_process.py:84-136. -/
def loadTables (j : Json) (meshes : List (Int × (Int × Int))) (config cluster : String) : Out Loaded :=
  pyGet j "routing_planes" >>= iterate >>= fun l =>
  Out.mapM deviceEntry l >>= fun planes =>
  pyGet j "device_id_to_fabric_node_id" >>= pairEntries >>= fun nodes =>
  pyGet j "eth_chan_to_coord" >>= pairEntries >>= fun coords =>
  .ok ⟨⟨meshes, config, cluster, buildDict planes.flatten, buildDict nodes, buildDict coords⟩,
    buildDict (nodes.map fun e => (e.2, e.1))⟩

/-- `TopologyGraph.__init__`, py/util/fabric_post_process.py:49-136, for the parsed file. -/
def loadTopology (j : Json) : Out Loaded :=
  pyGet j "fabric_config" >>= fun config =>
  pyGet j "cluster_type" >>= fun cluster =>
  pyGet j "mesh_shapes" >>= iterate >>= fun l =>
  Out.mapM meshEntry l >>= fun meshes =>
  if ¬ supported (configName config) then .std .pyProcessing
  else present cluster >>= fun cluster =>
    if 1 < (buildDict meshes).length then .std .pyProcessing
    else loadTables j (buildDict meshes) (configName config) (clusterName cluster)

end NPE.Fabric
