import Verif.Spec.Engine

/-
Vocabulary for the statement that runs complete.
-/

namespace NPE.Spec

/-- No transfer waits for itself, directly or through others: "waits for" can be followed only
finitely often. -/
def AcyclicWaits (s : Sim) : Prop := WellFounded fun j i : Nat => ∃ d, WaitsFor s i j d

/-- In every timestep of the run, every transfer that was already active has a bandwidth at which a
full timestep moves at least `q` bytes. -/
def KeepsMoving (cfg : SimCfg) (s0 : Sim) (q : Nat) : Prop :=
  ∀ (c : Nat) (s s' : Sim), Reach cfg s0 c s → stepSim cfg (c + cfg.cpt) s = .ok s' →
    ∀ i, Active s i → ∀ t, s'.ts[i]? = some t →
      (q : ℚ) ≤ cfg.fp.f32.fl (cfg.fp.f32.fl cfg.cpt * t.bw)

/-- Timesteps for `n` bytes at `q` bytes per timestep. -/
def steps (q n : Nat) : Nat := (n + q - 1) / q

/-- A clock by which a run is over, if a timestep moves at least `q` bytes of every active transfer:
latest offset, then for every `q` bytes (or part of them) of a transfer and twice for every transfer
(and once more) two timesteps, the largest delay and 32 cycles for rounding. -/
def deadline (wl : Workload) (q latest delay cpt : Nat) : Nat :=
  latest + ((wl.transfers.map fun t => steps q t.totalBytes).sum + 2 * wl.transfers.length + 1) *
    (delay + 2 * cpt + 32)

/-- Another clock by which a run of `n` transfers without groups is over, if each of them needs at most `most`
timesteps for its bytes: a transfer waits for the one two places before it on its lane, so at most half of
them are completed one after the other. -/
def laneDeadline (n most latest cpt : Nat) : Nat := latest + 1 + (n + 1) / 2 * ((most + 3) * cpt + 32)

/-- One of the two deadlines is within the cycle limit. -/
def EndsInTime (wl : Workload) (q latest cpt : Nat) : Prop :=
  deadline wl q latest 0 cpt ≤ 50000000 ∨
  ∃ most, (∀ t ∈ wl.transfers, steps q t.totalBytes ≤ most) ∧ cpt ≤ 25000000 ∧
    laneDeadline wl.transfers.length most latest cpt ≤ 50000000

end NPE.Spec
