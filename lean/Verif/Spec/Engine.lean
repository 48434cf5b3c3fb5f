import Verif.Model.Engine

/-
Vocabulary for statements about the simulation loop.
-/

namespace NPE.Spec

/-- The states of a run: the state before the first timestep and the state after each timestep.
The clock is the end of the last timestep.  A further timestep is simulated as long as something
is left to do and the cycle limit is not exceeded. -/
inductive Reach (cfg : SimCfg) (s0 : Sim) : Nat → Sim → Prop where
  | start : Reach cfg s0 0 s0
  | step {c : Nat} {s s' : Sim} : Reach cfg s0 c s →
      (c = 0 ∨ (c ≤ 50000000 ∧ ¬ (s.live = [] ∧ s.queue = []))) →
      stepSim cfg (c + cfg.cpt) s = .ok s' → Reach cfg s0 (c + cfg.cpt) s'

/-- A rate computation may read everything but may only write bandwidths. -/
def OnlyBandwidth (r : Rates) : Prop :=
  ∀ sot curr g ts live ts' g', r sot curr g ts live = .ok (ts', g') →
    ts'.length = ts.length ∧
    ∀ (i : Nat) (t t' : TState), ts[i]? = some t → ts'[i]? = some t' → t' = { t with bw := t'.bw }

/-- A rate computation that gives no active transfer more than its injection rate, provided that
this rate is not negative. -/
def WithinInjectionRate (r : Rates) : Prop :=
  ∀ sot curr g ts live ts' g', live.Nodup → r sot curr g ts live = .ok (ts', g') →
    ∀ (i : Nat) (t : TState), i ∈ live → ts'[i]? = some t → 0 ≤ t.params.injectionRate →
      t.bw ≤ t.params.injectionRate

/-- Transfer `i` is waiting, active, completed. -/
def Waiting (s : Sim) (i : Nat) : Prop := ∃ o, (o, i) ∈ s.queue
def Active (s : Sim) (i : Nat) : Prop := i ∈ s.live
def Completed (s : Sim) (i : Nat) : Prop :=
  ∃ t, s.ts[i]? = some t ∧ t.moved = t.params.totalBytes ∧ ¬ Waiting s i ∧ ¬ Active s i

/-- Transfer `i` waits for transfer `j`, with a delay: the checkpoint that `i` depends on is
provided by `j`. -/
def WaitsFor (s : Sim) (i j : Nat) (delay : Nat) : Prop :=
  ∃ ti tj cp, s.ts[i]? = some ti ∧ s.ts[j]? = some tj ∧ ti.dependsOn ∈ tj.requiredBy ∧
    0 ≤ ti.dependsOn ∧ s.deps[ti.dependsOn.toNat]? = some cp ∧ cp.delay = delay

end NPE.Spec
