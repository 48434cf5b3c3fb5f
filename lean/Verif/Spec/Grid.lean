/-
What a grid is for: a value for every place, to be read, changed and cleared.  Nothing here refers to the
model.
-/

namespace NPE.Spec.Grid

/-- A use of a store of values `α` with places `κ`. -/
inductive Act (κ α : Type) where
  | read (k : κ)
  | write (k : κ) (v : α)
  | reset (v : α)
  deriving DecidableEq, Repr

/-- The places an act is about. -/
def Act.place {κ α : Type} : Act κ α → Option κ
  | .read k => some k
  | .write k _ => some k
  | .reset _ => none

variable {κ α : Type} [DecidableEq κ]

/-- What a place holds after some acts, when it held `f k` at first: the value of the last act that changed
it. -/
def holds (f : κ → α) : List (Act κ α) → κ → α
  | [], k => f k
  | .read _ :: l, k => holds f l k
  | .write k' v :: l, k => holds (fun x => if x = k' then v else f x) l k
  | .reset v :: l, k => holds (fun _ => v) l k

/-- The values returned by the reads among some acts. -/
def answers (f : κ → α) : List (Act κ α) → List α
  | [] => []
  | .read k :: l => f k :: answers f l
  | .write k v :: l => answers (fun x => if x = k then v else f x) l
  | .reset v :: l => answers (fun _ => v) l

end NPE.Spec.Grid
