import Verif.Spec.Deps
import Verif.Spec.Congestion
import Verif.Model.Congestion
import Mathlib.Order.Monotone.Defs

/-
A short description of what a simulation computes, without queue, swaps, live list and checkpoints: in every
timestep the transfers that may begin do so, every active transfer moves what its speed allows, and those that are
complete record their end.  There is no order among transfers.
-/

namespace NPE.Spec.Fluid

/-- What is known of a transfer before the run. -/
structure Job where
  t : Transfer
  route : List Int
  /-- the transfer that it waits for, and the delay after the end of that transfer -/
  after : Option (Nat × Nat)

/-- How far a transfer is. -/
inductive Prog where
  | waiting
  | active (start moved : Nat)
  | finished (start endc : Nat)
  deriving DecidableEq

/-- The transfers of a run, by id. -/
abbrev State := Nat → Prog

/-- Speed of transfer `i` in the timestep that ends at `curr`, given which transfers are active. -/
abbrev Speed := Nat → State → Nat → ℚ

/-- The cycle at which a waiting transfer begins, if it begins by `curr`: its offset, or the end of the transfer that
it waits for plus the delay, in 32-bit arithmetic. -/
def begins (job : Nat → Job) (curr : Nat) (σ : State) (i : Nat) : Option Nat :=
  match σ i with
  | .waiting =>
    if (job i).t.offset ≤ curr then
      match (job i).after with
      | none => some (job i).t.offset
      | some (j, d) =>
        match σ j with
        | .finished _ e =>
          if (e + d) % 4294967296 ≤ curr then some (max (job i).t.offset ((e + d) % 4294967296)) else none
        | _ => none
    else none
  | _ => none

/-- All transfers that may begin do so. -/
def start (job : Nat → Job) (curr : Nat) (σ : State) : State := fun i =>
  match begins job curr σ i with
  | some c => .active c 0
  | none => σ i

/-- Cycles of the timestep that count for an active transfer: those since its start.  If the transfer that it waited
for ended in the previous timestep, those since that end count (again). -/
def credit (job : Nat → Job) (cpt curr : Nat) (σ : State) (i start : Nat) : Nat :=
  match (job i).after with
  | none => min cpt (curr - start)
  | some (j, _) =>
    match σ j with
    | .finished _ e =>
      if start + cpt < curr ∧ 2 * cpt ≤ curr ∧ curr ≤ e + 2 * cpt ∧ e + cpt < curr then curr - max start e
      else min cpt (curr - start)
    | _ => min cpt (curr - start)

/-- Every active transfer moves what its speed allows; `fl` is the rounding. -/
def advance (fl : ℚ → ℚ) (job : Nat → Job) (cpt : Nat) (speed : Speed) (curr : Nat) (σ : State) : State := fun i =>
  match σ i with
  | .active c m =>
    let v := speed curr σ i
    let bytes := min ((job i).t.totalBytes - m) (fl (fl (credit job cpt curr σ i c) * v)).floor.toNat
    if m + bytes = (job i).t.totalBytes then
      .finished c ((fl (fl (max c (curr - cpt) : Nat) + (fl (fl bytes / v)).ceil)).floor.toNat % 4294967296)
    else .active c (m + bytes)
  | p => p

/-- The states after each timestep. -/
def run (fl : ℚ → ℚ) (job : Nat → Job) (cpt : Nat) (speed : Speed) : Nat → State
  | 0 => fun _ => .waiting
  | k + 1 => advance fl job cpt speed ((k + 1) * cpt) (start job ((k + 1) * cpt) (run fl job cpt speed k))

/-! ### Speeds -/

/-- The bandwidth of a transfer that is alone: its injection rate or what packets of its size can have. -/
def own (fp : FP) (dev : Device) (t : Transfer) : ℚ :=
  match interpolateBW fp dev.tbt dev.maxBw t.packetSize t.numPackets with
  | .ok b => min t.injectionRate b
  | _ => 0

/-- The speed without congestion. -/
def alone (fp : FP) (dev : Device) (job : Nat → Job) : Speed := fun _ _ i => own fp dev (job i).t

/-- The state in which the engine keeps a transfer that began at `start`. -/
def Job.began (j : Job) (start : Nat) : TState := { params := j.t, route := j.route, start := start }

/-- Offered load: bandwidths of the active ones among `n` transfers, weighted by the active part of the timestep and by
`w`. -/
def load (dev : Device) (job : Nat → Job) (n cpt : Nat) (w : TState → Nat) (curr : Nat) (σ : State) : ℚ :=
  ((List.range n).map fun j => match σ j with
    | .active c _ => (w ((job j).began c) : ℚ) *
        (share (curr - cpt) curr ((job j).began c) * own .exact dev (job j).t)
    | _ => 0).sum

/-- The part of the demand that a resource can serve. -/
def served (limit load : ℚ) : ℚ := if load = 0 then 1 else limit / load

/-- The speed with congestion, in exact arithmetic: the most loaded link of the route, the source and (for unicasts)
the sink serve the same part of all their demands. -/
def shared (dev : Device) (job : Nat → Job) (n cpt : Nat) : Speed := fun curr σ i =>
  let t := (job i).t
  let link := ((job i).route.map fun l => load dev job n cpt (fun u => u.route.count l) curr σ).foldl max 0
  let sink := match t.dst with
    | .unicast d =>
      match dev.getSinkAbsorptionRate d with
      | .ok a => served a (load dev job n cpt (reaches dev t.noc d) curr σ)
      | _ => 1
    | .mcast _ => 1
  own .exact dev t * min 1 (min (served dev.linkBw link)
    (min (served t.injectionRate (load dev job n cpt (leaves dev t.noc t.src) curr σ)) sink))

/-! ### Speeds with rounding -/

/-- What an active transfer demands in a timestep, rounded in every operation. -/
def demand (fp : FP) (dev : Device) (job : Nat → Job) (cpt curr : Nat) (σ : State) (j : Nat) : ℚ :=
  match σ j with
  | .active c _ =>
    fp.f32.fl (fp.f32.fl (fp.f32.fl (curr - max (curr - cpt) c : Nat) / fp.f32.fl cpt) * own fp dev (job j).t)
  | _ => 0

/-- The demands of the listed transfers, each counted `w` times, added in the order of the list. -/
def loadIn (fp : FP) (dev : Device) (job : Nat → Job) (cpt : Nat) (order : List Nat) (w : TState → Nat) (curr : Nat)
    (σ : State) : ℚ :=
  (order.flatMap fun j => List.replicate (w ((job j).began 0)) (demand fp dev job cpt curr σ j)).foldl
    (fun y x => fp.f32.fl (y + x)) 0

/-- The part of the demand that a resource can serve, rounded. -/
def servedIn (fp : FP) (limit load : ℚ) : ℚ := if load = 0 then 1 else fp.f32.fl (limit / load)

/-- A bandwidth reduced to the part `d`. -/
def reduced (fp : FP) (dev : Device) (b d : ℚ) : ℚ :=
  if dev.multichip then fp.f32.fl (b * d) else fp.f32.fl (fp.f64.fl (b * fp.f64.fl (1 - fp.f32.fl (1 - d))))

/-- The speed with congestion and rounding, if the demands of the timestep that ends at `curr` are added in the order
`order curr`. -/
def sharedIn (fp : FP) (dev : Device) (job : Nat → Job) (cpt : Nat) (order : Nat → List Nat) : Speed := fun curr σ i =>
  let t := (job i).t
  let load := fun w => loadIn fp dev job cpt (order curr) w curr σ
  let link := ((job i).route.map fun l => load fun u => u.route.count l).foldl max 0
  let sink := match t.dst with
    | .unicast d =>
      match dev.getSinkAbsorptionRate d with
      | .ok a => servedIn fp a (load (reaches dev t.noc d))
      | _ => 1
    | .mcast _ => 1
  let part := min (servedIn fp dev.linkBw link)
    (min (servedIn fp t.injectionRate (load (leaves dev t.noc t.src))) sink)
  if part < 1 then reduced fp dev (own fp dev t) part else own fp dev t

/-- The lists hold the transfers that are active in each of the first `k` timesteps, each once, in some order. -/
def Orders (fl : ℚ → ℚ) (job : Nat → Job) (n cpt : Nat) (speed : Speed) (order : Nat → List Nat) (k : Nat) : Prop :=
  ∀ k', k' < k → (order ((k' + 1) * cpt)).Nodup ∧ ∀ i, i ∈ order ((k' + 1) * cpt) ↔
    i < n ∧ ∃ c m, start job ((k' + 1) * cpt) (run fl job cpt speed k') i = .active c m

/-! ### Relation to the engine -/

/-- The jobs of the engine's initial state. -/
def Describes (job : Nat → Job) (s0 : Sim) : Prop :=
  ∀ (i : Nat) (t : TState), s0.ts[i]? = some t →
    (job i).t = t.params ∧ (job i).route = t.route ∧ ∀ j d, (job i).after = some (j, d) ↔ WaitsFor s0 i j d

/-- The engine's state shows the state of the description. -/
def Shows (s : Sim) (σ : State) : Prop :=
  ∀ (i : Nat) (t : TState), s.ts[i]? = some t →
    match σ i with
    | .waiting => Waiting s i
    | .active c m => Active s i ∧ t.start = c ∧ t.moved = m
    | .finished c e => Completed s i ∧ t.start = c ∧ t.endc = e

/-- Boundaries of timesteps after cycle `c` and not after cycle `x`. -/
def boundaries (cpt c x : Nat) : Nat := x / cpt - c / cpt

/-- All of the first `n` transfers are finished. -/
def AllFinished (n : Nat) (σ : State) : Prop := ∀ i, i < n → ∃ c e, σ i = .finished c e

/-- How a run of the engine has to end if `σ k` is the state after `k` timesteps: at the first timestep after which all
transfers are finished, with their starts and ends; or beyond the cycle limit, with an unfinished transfer. -/
def EndsAs (n cpt : Nat) (σ : Nat → State) : Ending → Prop
  | .finished s c => s.ts.length = n ∧ ∃ k, 1 ≤ k ∧ c = k * cpt ∧
      (∀ (i : Nat) (t : TState), s.ts[i]? = some t → σ k i = .finished t.start t.endc) ∧
      ∀ k', 1 ≤ k' → k' < k → ¬ AllFinished n (σ k')
  | .limit s c => s.ts.length = n ∧ ∃ k, c = k * cpt ∧ 50000000 < c ∧ ¬ AllFinished n (σ k)

end NPE.Spec.Fluid

namespace NPE.Spec

/-- The same transfer, apart from the numbers of transfer and phase. -/
def SameData (t u : Transfer) : Prop := { t with id := u.id, phaseId := u.phaseId } = u

/-- Every transfer of one workload is found in another one, at the place given by `f`. -/
structure Contains (s0 s0' : Sim) (f : Nat → Nat) : Prop where
  inj : Function.Injective f
  same : ∀ (i : Nat) (t : TState), s0.ts[i]? = some t →
    ∃ t', s0'.ts[f i]? = some t' ∧ SameData t.params t'.params

/-- Two transfers whose order in the workload matters: they are scheduled for the same cycle in the same queue, or are
segments with the same index of the same group. -/
def Ranked (dev : Device) (t u : TState) : Prop :=
  (SameLane dev t u ∧ t.params.offset = u.params.offset) ∨
  (t.params.groupId = u.params.groupId ∧ t.params.groupIdx = u.params.groupIdx ∧ t.params.groupId ≠ -1)

/-- Every transfer of one workload is found in another one, in the same order as far as it matters. -/
structure Embeds (dev : Device) (s0 s0' : Sim) (f : Nat → Nat) : Prop extends Contains s0 s0' f where
  order : ∀ (i j : Nat) (t u : TState), s0.ts[i]? = some t → s0.ts[j]? = some u → Ranked dev t u → i < j → f i < f j

/-- Transfer `u` uses no link, no source and no sink interface of `t`, is not issued by the same queue and is not a
segment that `t` names as its parent. -/
structure Unrelated (dev : Device) (t u : TState) : Prop where
  apart : Apart dev t u
  lane : ¬ SameLane dev u t
  parent : NamesParent t.params → ¬ IsParent u.params t.params

/-- All further transfers of the second workload are unrelated to those of the first one. -/
def FurtherUnrelated (dev : Device) (s0 s0' : Sim) (f : Nat → Nat) : Prop :=
  ∀ (i' : Nat) (u : TState), s0'.ts[i']? = some u → (∀ i, i < s0.ts.length → f i ≠ i') →
    ∀ (i : Nat) (t : TState), s0.ts[i]? = some t → Unrelated dev t u

/-- Every segment that names a parent has one. -/
def ParentsFound (s0 : Sim) : Prop :=
  ∀ (i : Nat) (t : TState), s0.ts[i]? = some t → NamesParent t.params →
    ∃ (j : Nat) (p : TState), s0.ts[j]? = some p ∧ IsParent p.params t.params

/-- No transfer waits for another one. -/
def Independent (s0 : Sim) : Prop := ∀ i j d, ¬ WaitsFor s0 i j d

/-- The same device with other bandwidths of links and sinks. -/
def withRates (dev : Device) (link : ℚ) (sink : CoreType → ℚ) : Device := { dev with linkBw := link, absRate := sink }

/-- The same transfer, scheduled later. -/
def postponed (delay : Nat) (t : Transfer) : Transfer := { t with offset := t.offset + delay }

end NPE.Spec
