import Verif.Model.ZoneTree

/-
What nesting of zones means (C47, C65), without reference to the iterator.
-/

namespace NPE.Spec

/-- A forest of zones: `cons name start stop kids rest` is a zone with the zones inside of it, followed by
the zones after it. -/
inductive Forest where
  | nil
  | cons (name : String) (start stop : Int) (kids rest : Forest)
  deriving DecidableEq, Repr

namespace Forest

/-- The events of a forest in order. -/
def events : Forest → List Zone
  | nil => []
  | cons n s e k r => ⟨s, n, .zoneStart⟩ :: (events k ++ ⟨e, n, .zoneEnd⟩ :: events r)

/-- Number of zones with a name. -/
def count (m : String) : Forest → Nat
  | nil => 0
  | cons n _ _ k r => (if n = m then 1 else 0) + count m k + count m r

/-- Some zone of the forest has this name and start. -/
def Has (m : String) (t : Int) : Forest → Prop
  | nil => False
  | cons n s _ k r => (n = m ∧ s = t) ∨ Has m t k ∨ Has m t r

/-- No zone is inside of a zone with the same name and start. -/
def NoClash : Forest → Prop
  | nil => True
  | cons n s _ k r => ¬ Has n s k ∧ NoClash k ∧ NoClash r

/-- Concatenation. -/
def append : Forest → Forest → Forest
  | nil, g => g
  | cons n s e k r, g => cons n s e k (append r g)

/-- The expected document: every zone with start, end, the zones inside and its name with the number of
zones of the same name that started earlier; `before` counts those before the forest. -/
def document (before : String → Nat) : Forest → List ZoneNode
  | nil => []
  | cons n s e k r =>
    let inside := fun m => before m + if n = m then 1 else 0
    .node s (some (n ++ "[" ++ toString (before n) ++ "]", e)) (document inside k) ::
      document (fun m => inside m + count m k) r

/-- The same, restricted to a region: a zone that is not inside is left out with all zones in it. -/
def documentIn (lo hi : Int) (before : String → Nat) : Forest → List ZoneNode
  | nil => []
  | cons n s e k r =>
    let inside := fun m => before m + if n = m then 1 else 0
    let rest := documentIn lo hi (fun m => inside m + count m k) r
    if lo ≤ s ∧ e ≤ hi then
      .node s (some (n ++ "[" ++ toString (before n) ++ "]", e)) (documentIn lo hi inside k) :: rest
    else rest

end Forest

/-- Some zone of the forest has this name, start and end. -/
def HasSpan (m : String) (s' e' : Int) : Forest → Prop
  | .nil => False
  | .cons n s e k r => (n = m ∧ s = s' ∧ e = e') ∨ HasSpan m s' e' k ∨ HasSpan m s' e' r

/-- Some object of a document has this start and end. -/
inductive Lists (s e : Int) : List ZoneNode → Prop
  | here (l : String) (k rest : List ZoneNode) : Lists s e (.node s (some (l, e)) k :: rest)
  | inside {k : List ZoneNode} (s' : Int) (d : Option (String × Int)) (rest : List ZoneNode) : Lists s e k →
      Lists s e (.node s' d k :: rest)
  | later {rest : List ZoneNode} (x : ZoneNode) : Lists s e rest → Lists s e (x :: rest)

/-- `n` times `operator++` from the beginning. -/
def walk (zs : List Zone) : Nat → Out ZoneIter
  | 0 => .ok ZoneIter.init
  | n + 1 => walk zs n >>= fun it => it.next zs

/-- Number of starts of zones with a name. -/
def started (m : String) (zs : List Zone) : Nat :=
  zs.countP fun z => z.phase = .zoneStart && z.zone = m

/-- `Opening zs st`: the events `zs` are a nesting in which the zones `st` are still open, outermost
first, each with the number of earlier starts of the same name.  Everything between the starts of open
zones is closed. -/
inductive Opening : List Zone → List (Zone × Nat) → Prop
  | closed (f : Forest) : Opening f.events []
  | opened {pre : List Zone} {st : List (Zone × Nat)} (s : Zone) (f : Forest) : Opening pre st →
      s.phase = .zoneStart → Opening (pre ++ s :: f.events) (st ++ [(s, started s.zone pre)])

end NPE.Spec
