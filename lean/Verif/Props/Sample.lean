import Verif.Model.Engine

/-
A small run that the concrete cases beside the theorems use: a two-by-two excerpt of the
Wormhole device, one source core, one destination core, rate one byte per cycle.
-/

namespace NPE.Sample

/-- A two-by-two grid with the constants of Wormhole, in exact arithmetic. -/
def dev : Device := { wormhole .exact false 1 with rows := 2, cols := 2 }

/-- A transfer of one packet from core (0,1) to core (1,1). -/
def tr (size offset : Nat) : Transfer :=
  Transfer.make size 1 ⟨0, 0, 1⟩ (.unicast ⟨0, 1, 1⟩) 1 offset .noc0

/-- A workload with the golden window 0 to 1000. -/
def wl (ts : List Transfer) : Workload :=
  ((Workload.addPhase {} { transfers := ts }).setGoldenResultCycles [(0, (0, 1000))])

def cfg (ts : List Transfer) (congestion : Bool) : SimCfg :=
  simConfig .exact dev 128 (wl ts).golden congestion

/-- Final clock and (start, end, bytes) of every transfer. -/
def result (ts : List Transfer) (congestion : Bool) : Option (Nat × List (Nat × Nat × Nat)) :=
  match runLoop (cfg ts congestion) ⟨id, id⟩ (wl ts) with
  | .ok (.finished s c) => some (c, s.ts.map fun t => (t.start, t.endc, t.moved))
  | _ => none

/-- The state after `n` timesteps. -/
def after (ts : List Transfer) (congestion : Bool) : Nat → Out Sim
  | 0 => initSim .exact dev ⟨id, id⟩ (wl ts)
  | n + 1 => after ts congestion n >>= fun s => stepSim (cfg ts congestion) ((n + 1) * 128) s

example : result [tr 128 0, tr 1 0, tr 512 0] false =
    some (512, [(0, 128, 128), (0, 1, 1), (128, 512, 512)]) := by decide +kernel


/-- What is visible of a state: (start, bytes) of every transfer, the waiting and the active ones. -/
def view : Out Sim → Option (List (Nat × Nat) × List Nat × List Nat)
  | .ok s => some (s.ts.map fun t => (t.start, t.moved), s.queue.map (·.2), s.live)
  | _ => none

end NPE.Sample
