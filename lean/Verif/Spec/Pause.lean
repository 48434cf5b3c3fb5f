import Verif.Spec.Continue

/-
A workload that consists of two parts, the second of which is scheduled later.
-/

namespace NPE.Spec

/-- A workload consists of two others, whose transfers are at the places `f i` and `g i`: those of the first part are
scheduled before cycle `from_`, those of the second one for that cycle or later, and none of one part is named as a parent
in the other one. -/
structure Sequence (s1 s2 s : Sim) (f g : Nat → Nat) (from_ : Nat) : Prop where
  order1 : StrictMono f
  order2 : StrictMono g
  same1 : ∀ (i : Nat) (t : TState), s1.ts[i]? = some t → ∃ t', s.ts[f i]? = some t' ∧ SameData t.params t'.params
  same2 : ∀ (i : Nat) (t : TState), s2.ts[i]? = some t → ∃ t', s.ts[g i]? = some t' ∧ SameData t.params t'.params
  all : ∀ i', i' < s.ts.length → (∃ i, i < s1.ts.length ∧ f i = i') ∨ ∃ i, i < s2.ts.length ∧ g i = i'
  early : ∀ (i : Nat) (t : TState), s1.ts[i]? = some t → t.params.offset < from_
  late : ∀ (i : Nat) (t : TState), s2.ts[i]? = some t → from_ ≤ t.params.offset
  apart : ∀ (i j : Nat) (t u : TState), s1.ts[i]? = some t → s2.ts[j]? = some u →
    (NamesParent t.params → ¬ IsParent u.params t.params) ∧ (NamesParent u.params → ¬ IsParent t.params u.params)

end NPE.Spec
