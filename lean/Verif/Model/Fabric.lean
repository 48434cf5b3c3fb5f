import Verif.Model.Json
import Verif.Model.Util

/-
The script that elaborates fabric events, py/util/fabric_post_process.py (citations relative to
/repo/tt_npe).  Python exceptions are outcomes.  Not modelled: reading of files, comments in JSON, logging,
and `select_optimal_channel_for_route`/`find_optimal_path` (only used by the sample generator, see Model/Generate.lean).

Simplifications: a value that is used as a number but is not an integer is a `TypeError` right away (Python
raises it when the number is used); `int(a / b)` is exact (Python goes through a `float`).
-/

namespace NPE.Fabric
open NPE.Out

/-- `RoutingDirection`, py/util/fabric_post_process.py:32-36. -/
inductive Dir where
  | N | S | E | W
  deriving DecidableEq, Repr

/-- `get_inverse_direction`, py/util/fabric_post_process.py:38-46. -/
def Dir.inverse : Dir → Dir
  | .N => .S
  | .S => .N
  | .E => .W
  | .W => .E

/-- The attributes of `TopologyGraph`, py/util/fabric_post_process.py:56-62.  Dictionaries are association lists
with distinct keys, in the order of insertion. -/
structure Topology where
  /-- `mesh_shapes`: mesh id to (north-south size, east-west size) -/
  meshShapes : List (Int × (Int × Int))
  fabricConfig : String
  clusterType : String
  /-- `routing_planes`: (device, plane, direction) to ethernet channel -/
  planes : List ((Int × Int × Dir) × Int)
  /-- `device_id_to_fabric_node_id`: device to (mesh id, node) -/
  nodes : List (Int × (Int × Int))
  /-- `eth_chan_to_coord`: ethernet channel to (x, y) -/
  ethCoord : List (Int × (Int × Int))

/-- `d[k]` -/
def need {α : Type} (x : Option α) : Out α :=
  match x with
  | some a => .ok a
  | none => .std .pyKey

/-- A `None` that is turned into a `ProcessingError`. -/
def found {α : Type} (x : Option α) : Out α :=
  match x with
  | some a => .ok a
  | none => .std .pyProcessing

namespace Topology
variable (t : Topology)

/-- `fabric_node_id_to_device_id[k]`: filled together with the reverse map, so the last device of a node
counts, py/util/fabric_post_process.py:103-117. -/
def deviceOf (n : Int × Int) : Option Int := (t.nodes.reverse.find? fun e => e.2 = n).map (·.1)

/-- Corner turns of a one-dimensional fabric on T3K, py/util/fabric_post_process.py:202-224.  The tests are made one
after the other with the direction as changed so far. -/
def turn (ns ew x y : Int) (d : Dir) : Dir :=
  if (t.fabricConfig = "FABRIC_1D_RING" ∨ t.fabricConfig = "FABRIC_1D") ∧ t.clusterType = "T3K" then
    let d := if x = 0 ∧ y = 0 then
        let d := if d = .W then .S else d
        if d = .N then .E else d
      else d
    let d := if x = ew - 1 ∧ y = 0 then
        let d := if d = .E then .S else d
        if d = .N then .W else d
      else d
    let d := if x = 0 ∧ y = ns - 1 then
        let d := if d = .W then .N else d
        if d = .S then .E else d
      else d
    if x = ew - 1 ∧ y = ns - 1 then
        let d := if d = .E then .N else d
        if d = .S then .W else d
      else d
  else d

/-- The step itself, py/util/fabric_post_process.py:227-232. -/
def shift (x y : Int) : Dir → Int × Int
  | .N => (x, y - 1)
  | .S => (x, y + 1)
  | .E => (x + 1, y)
  | .W => (x - 1, y)

/-- Wrap-around, py/util/fabric_post_process.py:237-239.  Python's `%` with a positive divisor is never negative. -/
def wrap (ns ew : Int) (p : Int × Int) : Int × Int :=
  if t.fabricConfig = "FABRIC_1D_RING" ∨ t.fabricConfig = "FABRIC_2D_TORUS" then (p.1 % ew, p.2 % ns) else p

/-- `get_next_device_in_dir` once the mesh is known, py/util/fabric_post_process.py:193-247. -/
def stepFrom (mesh node ns ew : Int) (d : Dir) : Out (Int × Dir) :=
  if ew = 0 then .std .pyZeroDivision
  else if node < 0 ∨ ns * ew ≤ node then .std .pyProcessing
  else
    let x := node % ew
    let y := node / ew
    let d := t.turn ns ew x y d
    let p := t.wrap ns ew (shift x y d)
    if p.1 < 0 ∨ ew ≤ p.1 ∨ p.2 < 0 ∨ ns ≤ p.2 then .std .pyProcessing
    else need (t.deviceOf (mesh, p.2 * ew + p.1)) >>= fun dev => .ok (dev, d)

/-- `get_next_device_in_dir`, py/util/fabric_post_process.py:189-247. -/
def next (dev : Int) (d : Dir) : Out (Int × Dir) :=
  need (t.nodes.lookup dev) >>= fun node =>
  need (t.meshShapes.lookup node.1) >>= fun shape =>
  t.stepFrom node.1 node.2 shape.1 shape.2 d

end Topology

/-- A route segment of a path. -/
structure Segment where
  device : Int
  noc : String
  start : Int × Int
  forward : Option (Int × Int)
  /-- `local_writes`, the destinations of the event -/
  writes : Option (List Json)
  parent : Int

/-- The dictionary as it is written to the file. -/
def Segment.json (s : Segment) : Json :=
  .obj ([("device", .int s.device), ("noc", .str s.noc), ("segment_start_x", .int s.start.1),
    ("segment_start_y", .int s.start.2)] ++
    (match s.forward with | some f => [("forward_x", .int f.1), ("forward_y", .int f.2)] | none => []) ++
    [("parent_id", .int s.parent)] ++
    (match s.writes with | some w => [("local_writes", .arr w)] | none => []))

/-- `fabric_mux` of an event: position and NoC. -/
structure Mux where
  x : Int
  y : Int
  noc : String

/-- `add_first_hop`, py/util/fabric_post_process.py:249-298. -/
def addFirstHop (t : Topology) (src : Int × Int) (dev chan : Int) (mux : Option Mux) (noc : String) :
    Out (List Segment) :=
  need (t.ethCoord.lookup chan) >>= fun router =>
  match mux with
  | some m => .ok [⟨dev, noc, src, some (m.x, m.y), none, -1⟩, ⟨dev, m.noc, (m.x, m.y), some router, none, 0⟩]
  | none => .ok [⟨dev, noc, src, some router, none, -1⟩]

/-- Variables of the loop of `add_hops`. -/
structure Walk where
  path : List Segment
  dev : Int
  recv : Int × Int
  dir : Dir
  parent : Int

/-- What stays the same within `add_hops`. -/
structure HopArgs where
  start : Int
  total : Int
  plane : Int
  dst : List Json
  terminate : Bool

/-- The forwarding part of a hop, py/util/fabric_post_process.py:317-342: the position that data is forwarded to,
the next device, the position on it, the direction. -/
def forwardHop (t : Topology) (plane dev : Int) (dir : Dir) : Out ((Int × Int) × Int × (Int × Int) × Dir) :=
  t.next dev dir >>= fun n =>
  found (t.planes.lookup (dev, plane, n.2)) >>= fun chan =>
  need (t.ethCoord.lookup chan) >>= fun fwd =>
  found (t.planes.lookup (n.1, plane, n.2.inverse)) >>= fun rchan =>
  need (t.ethCoord.lookup rchan) >>= fun recv =>
  .ok (fwd, n.1, recv, n.2)

/-- Body of the loop of `add_hops`, py/util/fabric_post_process.py:307-349, for hop number `hop`. -/
def hopBody (t : Topology) (a : HopArgs) (w : Walk) (hop : Int) : Out Walk :=
  let writes := if a.start ≤ hop ∧ a.terminate then some a.dst else none
  if hop < a.total ∨ ¬ a.terminate then
    forwardHop t a.plane w.dev w.dir >>= fun f =>
    .ok ⟨w.path ++ [⟨w.dev, "NOC_1", w.recv, some f.1, writes, w.parent⟩], f.2.1, f.2.2.1, f.2.2.2, w.parent + 1⟩
  else
    .ok ⟨w.path ++ [⟨w.dev, "NOC_1", w.recv, none, writes, w.parent⟩], w.dev, w.recv, w.dir, w.parent + 1⟩

/-- `add_hops`, py/util/fabric_post_process.py:300-351. -/
def addHops (t : Topology) (path : List Segment) (dev : Int) (recv : Int × Int) (start range : Int) (dir : Dir)
    (plane : Int) (dst : List Json) (terminate : Bool) (parent : Int) : Out Walk :=
  Out.foldlM (hopBody t ⟨start, start + range - 1, plane, dst, terminate⟩) ⟨path, dev, recv, dir, parent⟩
    ((List.range (start + range - 1).toNat).map fun (k : Nat) => (k : Int) + 1)

/-- The search for the routing plane, py/util/fabric_post_process.py:371-382 and 416-427: the last entry with the
channel counts; the loop variable `routing_plane_id` keeps the plane of the last entry of all.  The message of the
error names an undefined variable, so a `NameError` is raised in its place. -/
def findPlane (t : Topology) (dev chan : Int) : Out (Int × Dir × Int) :=
  match t.planes.reverse.find? fun e => e.1.1 = dev ∧ e.2 = chan, t.planes.getLast? with
  | some e, some l => .ok (e.1.2.1, e.1.2.2, l.1.2.1)
  | _, _ => .std .pyName

/-- The move to the first remote device, py/util/fabric_post_process.py:384-390 and 429-435. -/
def firstReceiver (t : Topology) (dev plane : Int) (dir : Dir) : Out (Int × (Int × Int) × Dir) :=
  t.next dev dir >>= fun n =>
  found (t.planes.lookup (n.1, plane, n.2.inverse)) >>= fun chan =>
  need (t.ethCoord.lookup chan) >>= fun recv =>
  .ok (n.1, recv, n.2)

/-- `find_path_and_destination_1d`, py/util/fabric_post_process.py:353-394. -/
def path1d (t : Topology) (src : Int × Int) (dst : List Json) (dev chan start range : Int) (mux : Option Mux)
    (noc : String) : Out (List Segment × Int) :=
  addFirstHop t src dev chan mux noc >>= fun path =>
  findPlane t dev chan >>= fun p =>
  firstReceiver t dev p.2.2 p.2.1 >>= fun r =>
  addHops t path r.1 r.2.1 start range r.2.2 p.1 dst true (if mux.isNone then 0 else 1) >>= fun w =>
  .ok (w.path, w.dev)

/-- The branches of a two-dimensional multicast, py/util/fabric_post_process.py:444-449, in trunk row `i` (from 1). -/
def branch (t : Topology) (plane e w : Int) (dst : List Json) (parent : Int) (s : Walk) (i : Int) : Out Walk :=
  (if e = 0 then .ok s else addHops t s.path s.dev s.recv 1 e .E plane dst true (parent + i)) >>= fun s =>
  if w = 0 then .ok s else addHops t s.path s.dev s.recv 1 w .W plane dst true (parent + i)

/-- A multicast, py/util/fabric_post_process.py:437-458. -/
def mcast2d (t : Topology) (path : List Segment) (r : Int × (Int × Int) × Dir) (plane ns e w : Int) (dst : List Json)
    (parent : Int) : Out Walk :=
  if ns = 0 ∧ e = 0 ∧ w = 0 then .std .pyProcessing
  else if ns ≠ 0 then
    addHops t path r.1 r.2.1 1 ns r.2.2 plane dst true parent >>= fun s =>
    Out.foldlM (branch t plane e w dst parent) s ((List.range ns.toNat).map fun (k : Nat) => (k : Int) + 1)
  else if e ≠ 0 ∧ w ≠ 0 then .std .pyProcessing
  else if e ≠ 0 then addHops t path r.1 r.2.1 1 e .E plane dst true parent
  else addHops t path r.1 r.2.1 1 w .W plane dst true parent

/-- A unicast, py/util/fabric_post_process.py:459-480. -/
def unicast2d (t : Topology) (path : List Segment) (r : Int × (Int × Int) × Dir) (plane ns e w : Int) (dst : List Json)
    (parent : Int) : Out Walk :=
  if ns = 0 ∧ e = 0 ∧ w = 0 then .std .pyProcessing
  else if e ≠ 0 ∧ w ≠ 0 then .std .pyProcessing
  else if r.2.2 = .E ∨ r.2.2 = .W then
    addHops t path r.1 r.2.1 (if r.2.2 = .E then e else w) 1 r.2.2 plane dst true parent
  else
    addHops t path r.1 r.2.1 ns 1 r.2.2 plane dst (e = 0 ∧ w = 0) parent >>= fun s =>
    if e ≠ 0 then addHops t s.path s.dev s.recv e 1 .E plane dst true (parent + ns)
    else if w ≠ 0 then addHops t s.path s.dev s.recv w 1 .W plane dst true (parent + ns)
    else .ok s

/-- `find_path_and_destination_2d`, py/util/fabric_post_process.py:396-482. -/
def path2d (t : Topology) (src : Int × Int) (dst : List Json) (dev chan ns e w : Int) (isMcast : Bool)
    (mux : Option Mux) (noc : String) : Out (List Segment × Int) :=
  addFirstHop t src dev chan mux noc >>= fun path =>
  findPlane t dev chan >>= fun p =>
  firstReceiver t dev p.2.2 p.2.1 >>= fun r =>
  (if isMcast then mcast2d t path r p.1 ns e w dst (if mux.isNone then 0 else 1)
   else unicast2d t path r p.1 ns e w dst (if mux.isNone then 0 else 1)) >>= fun s =>
  .ok (s.path, s.dev)

/-! ### Processing of traces -/

/-- `e["key"]` as a number. -/
def needInt (e : Json) (k : String) : Out Int :=
  need (e.field k) >>= fun v => match v with
    | .int n => .ok n
    | _ => .std .pyType

/-- `e["key"]` as a string. -/
def needStr (e : Json) (k : String) : Out String :=
  need (e.field k) >>= fun v => match v with
    | .str n => .ok n
    | _ => .std .pyType

/-- `e["key"]` as a list. -/
def needArr (e : Json) (k : String) : Out (List Json) :=
  need (e.field k) >>= fun v => match v with
    | .arr n => .ok n
    | _ => .std .pyType

/-- `e["key"]` as a truth value (only `true`/`false` and numbers are modelled). -/
def needBool (e : Json) (k : String) : Out Bool :=
  need (e.field k) >>= fun v => match v with
    | .bool b => .ok b
    | .int n => .ok (n ≠ 0)
    | _ => .std .pyType

/-- `d[k] = v` on the fields of an object. -/
def setKey (k : String) (v : Json) : List (String × Json) → List (String × Json)
  | [] => [(k, v)]
  | e :: l => if e.1 = k then (k, v) :: l else e :: setKey k v l

/-- `d[k] = v` -/
def setField (k : String) (v : Json) : Json → Json
  | .obj l => .obj (setKey k v l)
  | j => j

/-- The desynchronisation filter, py/util/fabric_post_process.py:530-551: timestamps `ts` of the events `es`. -/
def cut (prev : Int × Json) : List (Int × Json) → List (Int × Json)
  | [] => []
  | e :: l => if 2 * prev.1 < e.1 ∧ 1000 < prev.1 then [] else e :: cut e l

/-- The filter on the sorted events; the first event is always kept. -/
def removeDesync : List (Int × Json) → List (Int × Json)
  | [] => []
  | e :: l => e :: cut e l

/-- `event["fabric_send"].get("fabric_mux")` -/
def mux? (f : Json) : Out (Option Mux) :=
  match f.field "fabric_mux" with
  | none => .ok none
  | some .null => .ok none
  | some m => needInt m "x" >>= fun x => needInt m "y" >>= fun y => needStr m "noc" >>= fun n => .ok (some ⟨x, y, n⟩)

/-- The path of a fabric event, py/util/fabric_post_process.py:566-582. -/
def findPath (t : Topology) (f : Json) (src : Int × Int) (dst : List Json) (dev chan : Int) (mux : Option Mux)
    (noc : String) : Out (List Segment × Int) :=
  if t.fabricConfig = "FABRIC_1D" ∨ t.fabricConfig = "FABRIC_1D_RING" then
    needInt f "start_distance" >>= fun s =>
    needInt f "range" >>= fun r =>
    path1d t src dst dev chan s r mux noc
  else if t.fabricConfig = "FABRIC_2D" ∨ t.fabricConfig = "FABRIC_2D_TORUS" then
    needInt f "ns_hops" >>= fun ns =>
    needInt f "e_hops" >>= fun e =>
    needInt f "w_hops" >>= fun w =>
    needBool f "is_mcast" >>= fun m =>
    path2d t src dst dev chan ns e w m mux noc
  else .std .pyProcessing

/-- Elaboration of an event, py/util/fabric_post_process.py:554-591. -/
def elaborate (t : Topology) (e : Json) : Out Json :=
  match e.field "fabric_send" with
  | none => .ok e
  | some f =>
    needInt e "sx" >>= fun sx =>
    needInt e "sy" >>= fun sy =>
    needArr e "dst" >>= fun dst =>
    needInt e "src_device_id" >>= fun dev =>
    needInt f "eth_chan" >>= fun chan =>
    mux? f >>= fun mux =>
    needStr e "noc" >>= fun noc =>
    findPath t f (sx, sy) dst dev chan mux noc >>= fun r =>
    .ok (setField "dst_device_id" (.int r.2)
      (setField "fabric_send" (setField "path" (.arr (r.1.map Segment.json)) f) e))

/-- The key of the final sort, py/util/fabric_post_process.py:594. -/
structure Key where
  dev : Int
  sx : Int
  sy : Int
  proc : String
  time : Int

/-- Comparison of two tuples. -/
def Key.le (a b : Key) : Bool :=
  if a.dev ≠ b.dev then a.dev < b.dev
  else if a.sx ≠ b.sx then a.sx < b.sx
  else if a.sy ≠ b.sy then a.sy < b.sy
  else if a.proc ≠ b.proc then a.proc < b.proc
  else a.time ≤ b.time

/-- The key of an event. -/
def keyOf (e : Json) : Out Key :=
  needInt e "src_device_id" >>= fun d =>
  needInt e "sx" >>= fun x =>
  needInt e "sy" >>= fun y =>
  needStr e "proc" >>= fun p =>
  needInt e "timestamp" >>= fun t => .ok ⟨d, x, y, p, t⟩

/-- `process_traces`, py/util/fabric_post_process.py:506-601, from the events of all files to the events that are
written.  A `ProcessingError` is logged and nothing is written; other exceptions escape. -/
def processTraces (t : Topology) (desync : Bool) (events : List Json) : Out (List Json) :=
  Out.mapM (fun e => needInt e "timestamp" >>= fun n => .ok (n, e)) events >>= fun evs =>
  let evs := sortBy (fun a b => decide (a.1 ≤ b.1)) evs
  let evs := if desync then removeDesync evs else evs
  Out.mapM (fun (e : Int × Json) => elaborate t e.2) evs >>= fun evs =>
  Out.mapM (fun e => keyOf e >>= fun k => .ok (k, e)) evs >>= fun evs =>
  .ok ((sortBy (fun a b => a.1.le b.1) evs).map (·.2))

end NPE.Fabric
