import Verif.Spec.Ingest

/-
When two traces differ only in how the events of different cores are interleaved (C153).
-/

namespace NPE.Spec.Trace

/-- The events of each core and processor are the same in both traces, in the same order. -/
def Interleaved (evs evs' : List Json) : Prop :=
  ∀ c, evs'.filter (fun e => core e = c) = evs.filter (fun e => core e = c)

/-- Events that use saved state find that of their own core and processor: no setter of another core comes in between. -/
def OwnState (evs : List Json) : Prop :=
  ∀ pre e post, evs = pre ++ e :: post →
    (type e ∈ readUsers → latest readSetters pre = latest readSetters (pre.filter fun x => core x = core e)) ∧
    (type e ∈ writeUsers → latest writeSetters pre = latest writeSetters (pre.filter fun x => core x = core e))

/-- A transfer with another number of its group. -/
def regroup (σ : Int → Int) (i : Item) : Item := { i with group := σ i.group }

end NPE.Spec.Trace
