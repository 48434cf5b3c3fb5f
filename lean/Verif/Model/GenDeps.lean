import Verif.Model.DepTracker

/-
Set-up of a simulation: `initTransferState`, `createTransferQueue` and `genDependencies`,
src/npeEngine.cpp:25-170.  Citations relative to /repo/tt_npe/cpp.
-/

namespace NPE

/-- Body of the inner loop of `initTransferState`, src/npeEngine.cpp:36-43.  The id is compared
as an unsigned number, so a negative one fails the assertion. -/
def initOne (dev : Device) (ord : List Int → List Int) (n : Nat)
    (slots : List (Option TState)) (t : Transfer) : Out (List (Option TState)) := do
  Out.assert (0 ≤ t.id && decide (t.id < n))
  let r ← dev.route ord t.noc t.src t.dst
  return slots.set t.id.toNat (some { params := t, route := r, start := t.offset })

/-- `initTransferState`, src/npeEngine.cpp:25-47.  A slot that is never assigned holds
uninitialised parameters, which the engine reads (undefined behaviour). -/
def initTransferState (dev : Device) (ord : List Int → List Int) (wl : Workload) :
    Out (List TState) := do
  let n := wl.transfers.length
  let slots ← Out.foldlM (initOne dev ord n) (List.replicate n none) wl.transfers
  Out.mapM (fun o => match o with | some t => .ok t | none => .ub) slots

/-- `createTransferQueue`, src/npeEngine.cpp:49-65: pairs (offset, id), largest first. -/
def createTransferQueue (ts : List TState) : List (Nat × Nat) :=
  sortBy (fun a b => decide (b.1 < a.1 ∨ (b.1 = a.1 ∧ b.2 ≤ a.2)))
    (ts.map fun t => (t.params.offset, t.params.id.toNat))

/-- Key of a bucket: NoC, source row, source column and link type,
src/npeEngine.cpp:71. -/
abbrev BucketKey := Noc × Int × Int × Int

/-- The key of one transfer, src/npeEngine.cpp:80-86.  The chip is not part of the key. -/
def bucketKey (dev : Device) (t : TState) : Out BucketKey :=
  match t.route with
  | [] => .ok (t.params.noc, t.params.src.row, t.params.src.col,
      match t.params.noc with | .noc0 => 1000 | .noc1 => 2000)
  | l :: _ => dev.getLinkAttributes l >>= fun a =>
      .ok (t.params.noc, t.params.src.row, t.params.src.col, a.type.toInt)

/-- Record that transfer `c` waits for transfer `p` plus `delay`: `createCheckpoint(1, delay)`,
`depends_on = …`, `required_by.push_back(…)`, src/npeEngine.cpp:104-108 and 149-151. -/
def addDep (st : List TState × Tracker) (p c delay : Nat) : Out (List TState × Tracker) :=
  let (ts, tk) := st
  let (id, tk) := tk.create 1 delay
  match ts[c]? with
  | none => .ub
  | some tc =>
    let ts := ts.set c { tc with dependsOn := id }
    match ts[p]? with
    | none => .ub
    | some tp => .ok (ts.set p { tp with requiredBy := tp.requiredBy ++ [id] }, tk)

/-- The loop over one bucket, src/npeEngine.cpp:93-109: members (start, id) are sorted by start
and each one waits for the member two places before it. -/
def chainBucket (st : List TState × Tracker) (members : List (Nat × Nat)) :
    Out (List TState × Tracker) :=
  let l := sortBy (fun a b => decide (a.1 ≤ b.1)) members
  Out.foldlM (fun st pc => addDep st pc.1.2 pc.2.2 0) st (l.zip (l.drop 2))

/-- The first pass of `genDependencies`, src/npeEngine.cpp:79-110.  `bord` is the iteration
order of the hash map of buckets (line 89), an arbitrary rearrangement of its keys. -/
def niuPass (dev : Device) (bord : List BucketKey → List BucketKey) (ts : List TState) :
    Out (List TState × Tracker) := do
  let keyed ← Out.mapM (fun t => bucketKey dev t >>= fun k =>
    .ok (k, t.start, t.params.id.toNat)) ts
  Out.foldlM (fun st k => chainBucket st ((keyed.filter fun e => e.1 = k).map (·.2)))
    (ts, []) (bord (keyed.map (·.1)).eraseDups)

/-- `transfer_group_and_index_to_id`, src/npeEngine.cpp:119-123: later entries win. -/
def groupMap (ts : List TState) : List ((Int × Int) × Nat) :=
  ((ts.filter fun t => t.params.groupId ≠ -1 ∧ t.params.groupIdx ≠ -1).map fun t =>
    ((t.params.groupId, t.params.groupIdx), t.params.id.toNat)).reverse

/-- `ETH_HOP_CYCLE_DELAY_PER_BYTE`, src/npeEngine.cpp:116. -/
def ethDelayPerByte (fp : FP) : ℚ := fp.f32.fl (1055 / 10000)

/-- Lines 144-147 of src/npeEngine.cpp: extra delay of an ethernet hop, in `float`; the sum is
converted to an unsigned 32-bit number (undefined when it does not fit). -/
def addEthDelay (fp : FP) (delay packetSize : Nat) : Out Nat :=
  let hop := fp.f32.fl (600 + fp.f32.fl (ethDelayPerByte fp * fp.f32.fl packetSize))
  let x := fp.f32.fl (fp.f32.fl delay + hop)
  if -1 < x ∧ x < 4294967296 then .ok x.floor.toNat else .ub

/-- The delay of a child segment, src/npeEngine.cpp:129-147.  `std::get<Coord>` throws for a
multicast destination; the Blackhole case falls through to the default and throws. -/
def groupDelay (fp : FP) (dev : Device) (t : Transfer) (parentDev : Int) : Out Nat := do
  let d ← match t.dst with
    | .unicast d => .ok d
    | .mcast _ => .std .badVariantAccess
  let delay ← match dev.arch with
    | .wormholeB0 =>
      .ok (toU32 (writeLatency .wormholeB0 t.src.col t.src.row d.col d.row (some t.noc)))
    | .blackhole => .exc .dependencyGenFailed
  if t.src.dev ≠ parentDev then addEthDelay fp delay t.packetSize else .ok delay

/-- Body of the second group loop, src/npeEngine.cpp:125-153.  A parent that is not in the map
is looked up with `operator[]`, which yields transfer 0. -/
def groupOne (fp : FP) (dev : Device) (gm : List ((Int × Int) × Nat))
    (st : List TState × Tracker) (t : Transfer) : Out (List TState × Tracker) :=
  if t.groupId ≠ -1 ∧ t.groupParent ≠ -1 then
    let p := (gm.lookup (t.groupId, t.groupParent)).getD 0
    match st.1[p]? with
    | none => .ub
    | some tp =>
      groupDelay fp dev t tp.params.src.dev >>= fun delay => addDep st p t.id.toNat delay
  else .ok st

/-- Lines 155-164 of src/npeEngine.cpp: run every `required_by` once and insist that each
checkpoint is then exactly satisfied. -/
def selfCheck (ts : List TState) (tk : Tracker) : Out Tracker := do
  let tk ← Out.foldlM (fun tk id => Tracker.update tk id 0) tk (ts.flatMap (·.requiredBy))
  if !tk.sanityCheck || !tk.allComplete then .exit else .ok tk

/-- `genDependencies`, src/npeEngine.cpp:67-170. -/
def genDependencies (fp : FP) (dev : Device) (bord : List BucketKey → List BucketKey)
    (ts : List TState) : Out (List TState × Tracker) := do
  let st ← niuPass dev bord ts
  let st ← Out.foldlM (groupOne fp dev (groupMap ts)) st (ts.map (·.params))
  let tk ← selfCheck st.1 st.2
  return (st.1, tk.reset)

end NPE
