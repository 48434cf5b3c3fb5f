import Verif.Model.Topology
import Verif.Model.Device
import Mathlib.Data.Rat.Floor

/-
The generator of sample timelines, scripts/generate_multichip_data.py, and the functions of the fabric script that only
it uses, py/util/fabric_post_process.py:139-187 (citations relative to /repo/tt_npe).

Simplifications: random choices are parameters; numbers are exact and the rounding of averages to two digits is left
out; the lists of all timesteps, which the script fills in one pass over the links, are given for each timestep by
itself; at least one transfer is generated (`max` of an empty sequence raises an error).
-/

namespace NPE.Generate
open NPE.Out

/-! ### Routes -/

/-- `if c == MAX: c = 0 else: c += 1`, scripts/generate_multichip_data.py:170-174 and 182-186. -/
def nextUp (max c : Int) : Int := if c = max then 0 else c + 1

/-- `if c == 0: c = MAX else: c -= 1`, scripts/generate_multichip_data.py:196-200 and 208-212. -/
def nextDown (max c : Int) : Int := if c = 0 then max else c - 1

/-- The loops of `generate_route_segment`, scripts/generate_multichip_data.py:165-212: the positions at which a link is
added.  `fuel` bounds the iterations; running out of it is reported as non-termination. -/
def walk (next : Int → Int) (e : Int) : Nat → Int → Out (List Int)
  | 0, _ => .diverge
  | f + 1, c => if c = e then .ok [] else walk next e f (next c) >>= fun l => .ok (c :: l)

/-- `generate_route_segment`, scripts/generate_multichip_data.py:138-227, for a grid of `rows` times `cols` cores. -/
def routeSegment (rows cols : Nat) (fuel : Nat) (d : Int) (s e : Coord) (noc : Noc) : Out (List LinkAttr × Coord) :=
  if s.row = e.row ∧ s.col = e.col then .ok ([], ⟨d, s.row, s.col⟩)
  else match noc with
    | .noc0 =>
      walk (nextUp (cols - 1)) e.col fuel s.col >>= fun a =>
      walk (nextUp (rows - 1)) e.row fuel s.row >>= fun b =>
      .ok ((a.map fun c => ⟨⟨d, s.row, c⟩, .noc0East⟩) ++ (b.map fun r => ⟨⟨d, r, e.col⟩, .noc0South⟩),
        ⟨d, e.row, e.col⟩)
    | .noc1 =>
      walk (nextDown (rows - 1)) e.row fuel s.row >>= fun a =>
      walk (nextDown (cols - 1)) e.col fuel s.col >>= fun b =>
      .ok ((a.map fun r => ⟨⟨d, r, s.col⟩, .noc1North⟩) ++ (b.map fun c => ⟨⟨d, e.row, c⟩, .noc1West⟩),
        ⟨d, e.row, e.col⟩)

/-- `WORKER_CORES`, scripts/generate_multichip_data.py:97-115. -/
def workers (rows cols : Nat) : List (Int × Int) :=
  ([1, 2, 3, 4, 7, 8, 9].flatMap fun (r : Int) => [1, 2, 3, 6, 7, 8].map fun (c : Int) => (r, c)).filter
    fun p => p.1 < rows ∧ p.2 < cols

/-- `DRAM_CORES`, scripts/generate_multichip_data.py:117-120. -/
def drams : List (Int × Int) := [1, 2, 3, 4, 5, 6, 7, 8, 9, 10].map fun (r : Int) => (r, 5)

/-- `estimate_transfer_time`, scripts/generate_multichip_data.py:230-238. -/
def transferTime (bytes : Int) (rate : ℚ) : Int :=
  let rate := if rate = 0 then 1 else rate
  max 40 (Int.floor (bytes / rate))

/-! ### Transfers and timesteps -/

/-- A segment of a route with its time, scripts/generate_multichip_data.py:300-309 and 342-351. -/
structure Segment where
  start : Int
  stop : Int
  links : List LinkAttr

/-- A transfer, scripts/generate_multichip_data.py:358-367. -/
structure Transfer where
  id : Int
  bytes : Int
  /-- `end_cycle` of the transfer -/
  stop : Int
  route : List Segment

/-- An entry of `all_links_used`, scripts/generate_multichip_data.py:393-400. -/
structure Usage where
  start : Int
  stop : Int
  demand : ℚ
  id : Int

/-- `all_links_used[key].append(u)`, scripts/generate_multichip_data.py:388-400. -/
def record (d : List (LinkAttr × List Usage)) (k : LinkAttr) (u : Usage) : List (LinkAttr × List Usage) :=
  match d with
  | [] => [(k, [u])]
  | e :: d => if e.1 = k then (e.1, e.2 ++ [u]) :: d else e :: record d k u

/-- What a segment records, scripts/generate_multichip_data.py:371-400. -/
def segmentUsages (t : Transfer) (s : Segment) : List (LinkAttr × Usage) :=
  let duration := s.stop - s.start + 1
  if duration ≤ 0 ∨ s.links.length = 0 then []
  else s.links.map fun l => (l, ⟨s.start, s.stop, t.bytes / duration, t.id⟩)

/-- `all_links_used`, scripts/generate_multichip_data.py:371-400. -/
def linksUsed (ts : List Transfer) : List (LinkAttr × List Usage) :=
  (ts.flatMap fun t => t.route.flatMap (segmentUsages t)).foldl (fun d e => record d e.1 e.2) []

/-- Whether a usage is put into timestep `t` of `c` cycles, scripts/generate_multichip_data.py:408-412. -/
def inBin (c t : Int) (u : Usage) : Bool := u.start / c ≤ t ∧ t < (u.stop - 1) / c + 1

/-- `timestep_link_bins[t]` and the ids that are put into `timestep_transfer_bins[t]`,
scripts/generate_multichip_data.py:404-415. -/
def bin (c t : Int) (d : List (LinkAttr × List Usage)) : List (LinkAttr × Usage) :=
  d.flatMap fun e => (e.2.filter (inBin c t)).map fun u => (e.1, u)

/-- `active_transfers`, scripts/generate_multichip_data.py:415 and 490: a set. -/
def activeTransfers (c t : Int) (ts : List Transfer) : List Int :=
  ((bin c t (linksUsed ts)).map fun e => e.2.id).dedup

/-- `link_demand_aggregated[key] += demand`, scripts/generate_multichip_data.py:436-439. -/
def addDemand (d : List (LinkAttr × ℚ)) (k : LinkAttr) (q : ℚ) : List (LinkAttr × ℚ) :=
  match d with
  | [] => [(k, 0 + q)]
  | e :: d => if e.1 = k then (e.1, e.2 + q) :: d else e :: addDemand d k q

/-- `link_demand_aggregated`, scripts/generate_multichip_data.py:435-439. -/
def linkDemand (c t : Int) (ts : List Transfer) : List (LinkAttr × ℚ) :=
  (bin c t (linksUsed ts)).foldl (fun d e => addDemand d e.1 e.2.demand) []

/-- `max_link_bw`, scripts/generate_multichip_data.py:430. -/
def maxLinkBw : ℚ := 281 / 10

/-- `num_links`, scripts/generate_multichip_data.py:424-426. -/
def numLinks (rows cols : Nat) : ℚ := 2 * (rows * cols * 4)

/-- `avg_link_demand`, scripts/generate_multichip_data.py:441-445. -/
def avgDemand (rows cols : Nat) (c t : Int) (ts : List Transfer) : ℚ :=
  ((linkDemand c t ts).map fun e => e.2).sum * (100 / maxLinkBw) / numLinks rows cols

/-- `avg_link_util`, scripts/generate_multichip_data.py:447-454. -/
def avgUtil (rows cols : Nat) (c t : Int) (ts : List Transfer) : ℚ :=
  ((linkDemand c t ts).map fun e => min maxLinkBw e.2).sum * (100 / maxLinkBw) / numLinks rows cols

/-- `curr_max_cycle`, scripts/generate_multichip_data.py:247, 298 and 340. -/
def maxCycle (ts : List Transfer) : Int :=
  (ts.flatMap fun t => t.route.map fun s => s.stop).foldl max 0

/-- `num_timesteps`, scripts/generate_multichip_data.py:418-422. -/
def numTimesteps (c : Int) (t : Transfer) (ts : List Transfer) : Int :=
  let actual := ts.foldl (fun m x => max m x.stop) t.stop
  Int.ceil (((max (maxCycle (t :: ts)) actual + c : Int) : ℚ) / c)

/-! ### Paths between devices -/

/-- A link of `links_to_neighbors` with the attributes that are read, py/util/fabric_post_process.py:151-165. -/
structure EdmInfo where
  remoteChan : Int
  remoteDevice : Int
  localChan : Int

/-- `links_to_neighbors`: the constructor sets it to an empty `defaultdict(list)` and nothing fills it,
py/util/fabric_post_process.py:136-137. -/
def linksToNeighbors (_ : Fabric.Loaded) (_ : Int) : List EdmInfo := []

/-- The loop of `select_optimal_channel_for_route`, py/util/fabric_post_process.py:148-169.  The attributes
`fwd_chan_lookup` and `edm_map` do not exist, so that any link that does not lead to the destination ends in an
`AttributeError`. -/
def possiblePaths (dst : Int) : List EdmInfo → Out (List (Int × Int))
  | [] => .ok []
  | i :: l => if i.remoteDevice = dst then possiblePaths dst l >>= fun r => .ok ((1, i.localChan) :: r)
    else .std .pyAttribute

/-- `find_optimal_path`, py/util/fabric_post_process.py:139-187: both assertions, then a call of
`find_path_and_destination_1d` without its last arguments, which is a `TypeError`. -/
def findOptimalPath (g : Fabric.Loaded) (src dst : Int) : Out (List Fabric.Segment) :=
  if src = dst then .std .pyAssertion
  else possiblePaths dst (linksToNeighbors g src) >>= fun l =>
    if l.length = 0 then .std .pyAssertion else .std .pyType

end NPE.Generate
