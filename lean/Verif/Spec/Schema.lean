import Verif.Model.Json

/-
The shape of a JSON document, and the formats of timeline files as published in
/repo/tt_npe/scripts/timeline_schema_v1.json and /repo/tt_npe/scripts/stats_schema.json (examples with comments).
-/

namespace NPE.Spec

/-- A shape of JSON values.  Objects and tuples are described key by key and element by element. -/
inductive Schema where
  | int
  | num
  | text
  /-- one of the given texts -/
  | name (l : List String)
  /-- a list whose elements all have the same shape -/
  | list (s : Schema)
  /-- an object with any keys, whose values all have the same shape -/
  | dict (s : Schema)
  | orNull (s : Schema)
  /-- an object of which nothing more is said -/
  | object
  /-- an object in which the first value under `k` has the shape `s`, and which is `rest` -/
  | field (k : String) (s rest : Schema)
  /-- the list of no elements -/
  | nil
  /-- a list that begins with `s` and goes on as `rest` -/
  | cons (s rest : Schema)

namespace Schema

/-- A record with at least the given keys. -/
def record (l : List (String × Schema)) : Schema := l.foldr (fun e r => .field e.1 e.2 r) .object

/-- A list of exactly these elements. -/
def tuple (l : List Schema) : Schema := l.foldr .cons .nil

/-- Does the value have the shape? -/
def fits : Schema → Json → Bool
  | .int, .int _ => true
  | .num, .int _ => true
  | .num, .double _ => true
  | .text, .str _ => true
  | .name l, .str s => l.contains s
  | .list s, .arr l => l.all s.fits
  | .dict s, .obj l => l.all fun e => s.fits e.2
  | .orNull _, .null => true
  | .orNull s, j => s.fits j
  | .object, .obj _ => true
  | .field k s rest, .obj l =>
    (match l.lookup k with
      | some v => s.fits v
      | none => false) && rest.fits (.obj l)
  | .nil, .arr [] => true
  | .cons s rest, .arr (j :: l) => s.fits j && rest.fits (.arr l)
  | _, _ => false

end Schema

open Schema

/-- What differs between the published formats and the files. -/
structure Names where
  /-- the key of the number of a transfer -/
  id : String
  /-- the keys of the two averages of a timestep -/
  demand : String
  util : String
  /-- the two NoCs -/
  noc0 : String
  noc1 : String
  /-- the names in lists of links -/
  links : List String
  /-- the figures of the whole run -/
  figure : Schema

/-- The names in timeline_schema_v1.json. -/
def Names.published : Names where
  id := "transfer_id"
  demand := "avg_demand"
  util := "avg_util"
  noc0 := "NOC_0"
  noc1 := "NOC_1"
  links := ["NOC_0_SOUTH", "NOC_0_EAST", "NOC_1_NORTH", "NOC_1_WEST"]
  figure := .num

/-- What the files have in their place. -/
def Names.written : Names where
  id := "id"
  demand := "avg_link_demand"
  util := "avg_link_util"
  noc0 := "NOC0"
  noc1 := "NOC1"
  links := ["NOC0_SOUTH", "NOC0_EAST", "NOC1_NORTH", "NOC1_WEST", "NOC0_IN", "NOC0_OUT", "NOC1_IN", "NOC1_OUT"]
  figure := .orNull .num

/-- What the files have if all figures of the run exist. -/
def Names.numbers : Names := { Names.written with figure := .num }

/-- `[device_id, row, col]` -/
def place : Schema := tuple [.int, .int, .int]

/-- timeline_schema_v1.json:17-26. -/
def nocShape (figure : Schema) : Schema := record [
  ("avg_link_demand", figure), ("avg_link_util", figure), ("max_link_demand", .num)]

/-- timeline_schema_v1.json:6-28. -/
def commonShape (n : Names) : Schema := record [
  ("version", .name ["1.0.0"]),
  ("cycles_per_timestep", .int),
  ("congestion_model_name", .name ["fast", "none"]),
  ("mesh_device", .text),
  ("arch", .name ["wormhole_b0", "blackhole"]),
  ("dram_bw_util", n.figure),
  ("link_util", n.figure),
  ("link_demand", n.figure),
  ("max_link_demand", .num),
  ("noc", record [(n.noc0, nocShape n.figure), (n.noc1, nocShape n.figure)])]

/-- timeline_schema_v1.json:66-81. -/
def segmentShape (n : Names) : Schema := record [
  ("device_id", .int),
  ("src", place),
  ("dst", .list place),
  ("noc_type", .name [n.noc0, n.noc1]),
  ("injection_rate", .num),
  ("start_cycle", .int),
  ("end_cycle", .int),
  ("links", .list (tuple [.int, .int, .int, .name n.links]))]

/-- timeline_schema_v1.json:44-83. -/
def transferShape (n : Names) : Schema := record [
  (n.id, .int),
  ("noc_event_type", .text),
  ("total_bytes", .int),
  ("src", place),
  ("dst", .list place),
  ("start_cycle", .int),
  ("end_cycle", .int),
  ("route", .list (segmentShape n))]

/-- timeline_schema_v1.json:130-158. -/
def timestepShape (n : Names) : Schema := record [
  ("start_cycle", .int),
  ("end_cycle", .int),
  ("active_transfers", .list .int),
  (n.demand, .num),
  (n.util, .num),
  ("link_demand", .list (tuple [.int, .int, .int, .name n.links, .num]))]

/-- timeline_schema_v1.json. -/
def timelineShape (n : Names) : Schema := record [
  ("common_info", commonShape n),
  ("chips", .dict (tuple [.int, .int, .int, .int])),
  ("noc_transfers", .list (transferShape n)),
  ("timestep_data", .list (timestepShape n))]

/-! ## The legacy format -/

/-- stats_schema.json:25-54; `route` as given. -/
def oldTransferShape (n : Names) (route : Schema) : Schema := record [
  ("id", .int),
  ("total_bytes", .int),
  ("src", tuple [.int, .int]),
  ("dst", .list (tuple [.int, .int])),
  ("route", route),
  ("noc_type", .name [n.noc0, n.noc1]),
  ("injection_rate", .num),
  ("start_cycle", .int),
  ("end_cycle", .int),
  ("noc_event_type", .text)]

/-- A link in the legacy format: `[row, col, name]`. -/
def oldLink (n : Names) : Schema := tuple [.int, .int, .name n.links]

/-- stats_schema.json:74-93. -/
def oldTimestepShape (n : Names) : Schema := record [
  ("start_cycle", .int),
  ("end_cycle", .int),
  ("active_transfers", .list .int),
  ("link_demand", .list (tuple [.int, .int, .name n.links, .num])),
  ("avg_link_demand", .num),
  ("avg_link_util", .num)]

/-- stats_schema.json, with the given shape of `route`. -/
def oldShape (n : Names) (route : Schema) : Schema := record [
  ("common_info", record [
    ("cycles_per_timestep", .int),
    ("congestion_model_name", .name ["fast", "none"]),
    ("device_name", .text),
    ("num_rows", .int),
    ("num_cols", .int),
    ("dram_bw_util", n.figure),
    ("link_util", n.figure),
    ("link_demand", n.figure),
    ("max_link_demand", .num)]),
  ("noc_transfers", .list (oldTransferShape n route)),
  ("timestep_data", .list (oldTimestepShape n))]

/-- stats_schema.json: a route is a list of lists of links. -/
def oldPublished : Schema := oldShape .published (.list (.list (oldLink .published)))

/-- What the files have: a route is one list of links. -/
def oldWritten (n : Names) : Schema := oldShape n (.list (oldLink n))

end NPE.Spec
