import Verif.Model.DepTracker
import Verif.Model.Stats

/-
What the timeline properties (C44-C46) are about, without reference to the serializer.
-/

namespace NPE.Spec

/-- `l` is a chain of non-empty half-open index intervals from `a` to `b`. -/
inductive Chain : Nat → Nat → List (Nat × Nat) → Prop
  | nil (a : Nat) : Chain a a []
  | cons {a b c : Nat} {l : List (Nat × Nat)} : a < b → Chain b c l → Chain a c ((a, b) :: l)

/-- Some cycle belongs to both half-open intervals. -/
def Intersect (s e a b : Nat) : Prop := ∃ c : Nat, s ≤ c ∧ c < e ∧ a ≤ c ∧ c < b

/-- Each record begins where its predecessor ends, and none is empty. -/
def Contiguous (l : List TimestepStats) : Prop :=
  (∀ r ∈ l, r.startc < r.endc) ∧
    ∀ (k : Nat) r r', l[k]? = some r → l[k + 1]? = some r' → r'.startc = r.endc

/-- Does a transfer belong to a group of the workload? -/
def Grouped (t : TState) : Prop := t.params.groupId ≠ -1 ∧ t.params.groupIdx ≠ -1

instance (t : TState) : Decidable (Grouped t) := by unfold Grouped; infer_instance

/-- The groups of all grouped transfers have been registered. -/
def Registered (n : Nat) (ts : List TState) : Prop := ∀ t ∈ ts, Grouped t → t.params.groupId < n

/-- Identifiers are positions. -/
def IdsArePositions (ts : List TState) : Prop := ∀ (i : Nat) t, ts[i]? = some t → t.params.id = i

/-- A division of transfers into logical transfers: every transfer occurs exactly once, the names are
distinct, grouped transfers are under the name of their group, others are alone, and the parts of
a group are ordered by index. -/
structure Division (ts : List TState) (parts : List (Int × List TState)) : Prop where
  all : (parts.flatMap (·.2)).Perm ts
  names : (parts.map (·.1)).Nodup
  nonempty : ∀ p ∈ parts, p.2 ≠ []
  grouped : ∀ p ∈ parts, ∀ t ∈ p.2, Grouped t → p.1 = t.params.groupId
  alone : ∀ p ∈ parts, ∀ t ∈ p.2, ¬ Grouped t → p.2 = [t]
  ordered : ∀ p ∈ parts, p.2.Pairwise fun a b => a.params.groupIdx ≤ b.params.groupIdx

end NPE.Spec
