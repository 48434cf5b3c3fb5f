import Mathlib.Data.List.Basic

/-
A hash container as the reader of a C++ program understands it: `n` buckets, a key lives in the bucket that its
hash selects, and a search compares the key with the keys of that bucket only.
-/

namespace NPE.Spec

variable {α β : Type}

/-- The answer of an association list under the equality `eq`: the newest entry comes first. -/
def assoc (eq : α → α → Bool) (entries : List (α × β)) (k : α) : Option β :=
  (entries.find? fun e => eq e.1 k).map Prod.snd

/-- The answer of a table of `n` buckets: only entries in the bucket of the key are compared. -/
def bucketed (hash : α → Nat) (n : Nat) (eq : α → α → Bool) (entries : List (α × β)) (k : α) : Option β :=
  assoc eq (entries.filter fun e => hash e.1 % n == hash k % n) k

end NPE.Spec
