import Verif.Model.Workload

/-
Transfer state and dependency tracking: include/npeTransferState.hpp and
include/npeDependencyTracker.hpp.  Citations relative to /repo/tt_npe/cpp.
-/

namespace NPE

/-- `PETransferState`, include/npeTransferState.hpp:19-37. -/
structure TState where
  params : Transfer
  route : List Int
  /-- `start_cycle` -/
  start : Nat
  /-- `end_cycle` -/
  endc : Nat := 0
  /-- `curr_bandwidth` -/
  bw : ℚ := 0
  /-- `total_bytes_transferred` -/
  moved : Nat := 0
  /-- `depends_on`, -1 when there is none -/
  dependsOn : Int := -1
  requiredBy : List Int := []
  deriving DecidableEq

/-- `npeCheckpoint`, include/npeDependencyTracker.hpp:84-101 (its `id` is its position). -/
structure Checkpoint where
  /-- `dep_completed` -/
  completed : Nat
  /-- `dep_total` -/
  total : Nat
  /-- `end_cycle` -/
  endc : Nat
  delay : Nat
  deriving DecidableEq, Repr

/-- `checkpoints`, include/npeDependencyTracker.hpp:103. -/
abbrev Tracker := List Checkpoint

namespace Tracker

/-- `UNDEFINED_CHECKPOINT`, include/npeDependencyTracker.hpp:22. -/
def UNDEFINED : Int := -1

/-- `defined`, include/npeDependencyTracker.hpp:23. -/
def defined (id : Int) : Bool := id ≠ UNDEFINED

/-- `createCheckpoint`, include/npeDependencyTracker.hpp:17-20. -/
def create (tk : Tracker) (total delay : Nat) : Int × Tracker :=
  (tk.length, tk ++ [⟨0, total, 0, delay⟩])

/-- `TT_ASSERT(id < checkpoints.size())` and the access after it (the id is compared as an
unsigned number, so a negative one fails). -/
def get (tk : Tracker) (id : Int) : Out Checkpoint :=
  if id < 0 then .exc .undef
  else match tk[id.toNat]? with
    | some c => .ok c
    | none => .exc .undef

/-- `updateCheckpoint`, include/npeDependencyTracker.hpp:26-33. -/
def update (tk : Tracker) (id : Int) (endCycle : Nat) : Out Tracker :=
  if defined id then
    tk.get id >>= fun cp =>
      .ok (tk.set id.toNat
        { cp with completed := cp.completed + 1, endc := max cp.endc endCycle })
  else .ok tk

/-- `end_cycle`, include/npeDependencyTracker.hpp:35-40. -/
def endCycle (tk : Tracker) (id : Int) : Out Nat :=
  if defined id then tk.get id >>= fun cp => .ok cp.endc else .ok 0

/-- `end_cycle_plus_delay`, include/npeDependencyTracker.hpp:42-47 (32-bit sum). -/
def endCyclePlusDelay (tk : Tracker) (id : Int) : Out Nat :=
  if defined id then tk.get id >>= fun cp => .ok ((cp.endc + cp.delay) % 4294967296)
  else .ok 0

/-- `npeCheckpoint::done`, include/npeDependencyTracker.hpp:92-94 (32-bit sum). -/
def _root_.NPE.Checkpoint.done (cp : Checkpoint) (cycle : Nat) : Bool :=
  cp.completed = cp.total && decide ((cp.endc + cp.delay) % 4294967296 ≤ cycle)

/-- `done`, include/npeDependencyTracker.hpp:49-54. -/
def done (tk : Tracker) (id : Int) (curr : Nat) : Out Bool :=
  if defined id then tk.get id >>= fun cp => .ok (cp.done curr) else .ok true

/-- `sanityCheck`, include/npeDependencyTracker.hpp:57-64. -/
def sanityCheck (tk : Tracker) : Bool := tk.all fun c => decide (c.completed ≤ c.total)

/-- `allComplete`, include/npeDependencyTracker.hpp:67-74. -/
def allComplete (tk : Tracker) : Bool := tk.all fun c => c.completed = c.total

/-- `reset`, include/npeDependencyTracker.hpp:77-81. -/
def reset (tk : Tracker) : Tracker := tk.map fun c => { c with completed := 0 }

end Tracker

end NPE
