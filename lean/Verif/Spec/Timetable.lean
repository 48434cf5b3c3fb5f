import Verif.Spec.Liveness

/-
Vocabulary for the statement that every transfer is completed in time.
-/

namespace NPE.Spec

/-- In every timestep of the run, transfer `i`, if it was already active, has a bandwidth at which a full
timestep moves at least `q i` bytes. -/
def MovesEach (cfg : SimCfg) (s0 : Sim) (q : Nat → Nat) : Prop :=
  ∀ (c : Nat) (s s' : Sim), Reach cfg s0 c s → stepSim cfg (c + cfg.cpt) s = .ok s' →
    ∀ i, Active s i → ∀ t, s'.ts[i]? = some t →
      (q i : ℚ) ≤ cfg.fp.f32.fl (cfg.fp.f32.fl cfg.cpt * t.bw)

/-- `due` gives every transfer enough time: transfer `i` may begin once its offset has passed and, if it waits
for another one, once the other one is due, the delay is over and one more timestep has passed; from then on
there is time for its bytes at `q i` bytes per timestep, for two more timesteps and 32 cycles. -/
def Timetable (s0 : Sim) (q : Nat → Nat) (cpt : Nat) (due : Nat → Nat) : Prop :=
  ∀ (i : Nat) (t : TState), s0.ts[i]? = some t → ∃ b, t.params.offset < b ∧
    (∀ j d, WaitsFor s0 i j d → due j + d + cpt ≤ b) ∧
    b + (steps (q i) t.params.totalBytes + 2) * cpt + 32 ≤ due i

end NPE.Spec
