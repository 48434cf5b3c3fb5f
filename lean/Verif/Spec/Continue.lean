import Verif.Spec.Fluid
import Mathlib.Order.Monotone.Basic

/-
A workload and the same one with further transfers that are scheduled later.
-/

namespace NPE.Spec

/-- The second workload has all transfers of the first one, in the same order, all of them scheduled before cycle
`from_`; the further ones are scheduled for that cycle or later and are not named as parents by the others. -/
structure Continues (s0 s0' : Sim) (f : Nat → Nat) (from_ : Nat) : Prop where
  order : StrictMono f
  same : ∀ (i : Nat) (t : TState), s0.ts[i]? = some t →
    ∃ t', s0'.ts[f i]? = some t' ∧ SameData t.params t'.params
  early : ∀ (i : Nat) (t : TState), s0.ts[i]? = some t → t.params.offset < from_
  late : ∀ (i' : Nat) (u : TState), s0'.ts[i']? = some u → (∀ i, i < s0.ts.length → f i ≠ i') →
    from_ ≤ u.params.offset ∧
    ∀ (i : Nat) (t : TState), s0.ts[i]? = some t → NamesParent t.params → ¬ IsParent u.params t.params

/-- Transfer `i` of one state is as far as transfer `i'` of another one. -/
def AsFar (s s' : Sim) (i i' : Nat) : Prop :=
  (Waiting s i ∧ Waiting s' i') ∨
  (Active s i ∧ Active s' i' ∧
    ∃ t t', s.ts[i]? = some t ∧ s'.ts[i']? = some t' ∧ t'.start = t.start ∧ t'.moved = t.moved) ∨
  (Completed s i ∧ Completed s' i' ∧
    ∃ t t', s.ts[i]? = some t ∧ s'.ts[i']? = some t' ∧ t'.start = t.start ∧ t'.endc = t.endc)

end NPE.Spec
