import Verif.Model.Timeline

/-
The zones of a timeline file, src/npeStats.cpp:608-668.  Citations relative to /repo/tt_npe/cpp.

A JSON object for a zone is a `ZoneNode`; a pointer to such an object is the list of array positions
that leads to it.  Simplifications: timestamps are integers (`double` in C++, exact below 2^53); a
pointer stays valid when the array that holds its object is reallocated (the code follows such a
pointer only if two nested zones have the same name and start).
-/

namespace NPE

/-- The JSON object of a zone: `start`, then `id` and `end` once they are known, and `zones`. -/
inductive ZoneNode where
  | node (start : Int) (done : Option (String × Int)) (kids : List ZoneNode)

namespace ZoneNode

/-- The nested zones. -/
def kids : ZoneNode → List ZoneNode
  | node _ _ k => k

/-- Equality test. -/
def beq : ZoneNode → ZoneNode → Bool
  | node a b c, node a' b' c' => a == a' && b == b' && beqs c c'
where
  beqs : List ZoneNode → List ZoneNode → Bool
  | [], [] => true
  | x :: l, y :: m => beq x y && beqs l m
  | _, _ => false

end ZoneNode

/-- Follow a pointer into the array `l` and replace the object it points to.  A pointer to nowhere is
undefined behaviour. -/
def modifyZone (f : ZoneNode → ZoneNode) : List Nat → List ZoneNode → Out (List ZoneNode)
  | [], _ => .ub
  | [i], l =>
    match l[i]? with
    | some x => .ok (l.set i (f x))
    | none => .ub
  | i :: p, l =>
    match l[i]? with
    | some (.node s d k) => do
      let k' ← modifyZone f p k
      return l.set i (.node s d k')
    | none => .ub

/-- The object a pointer points to. -/
def readZone : List Nat → List ZoneNode → Out ZoneNode
  | [], _ => .ub
  | [i], l =>
    match l[i]? with
    | some x => .ok x
    | none => .ub
  | i :: p, l =>
    match l[i]? with
    | some x => readZone p x.kids
    | none => .ub

/-- Local variables of the loop, src/npeStats.cpp:611-615: `root_zone_json["zones"]`, `zone_jsons` and
the iterator. -/
structure ZoneDoc where
  root : List ZoneNode := []
  ptr : List (Zone × List Nat) := []
  it : ZoneIter := ZoneIter.init

/-- `*zone_jsons[z]`: a missing entry is a null pointer. -/
def ZoneDoc.pointer (d : ZoneDoc) (z : Zone) : Out (List Nat) :=
  match d.ptr.lookup z with
  | some p => .ok p
  | none => .ub

/-- `fullyContainedInRegion` for the timestamps of a zone, src/npeStats.cpp:352-356. -/
def Region.zoneFully (r : Region) (s e : Int) : Bool := (r.startCycle : Int) ≤ s && e ≤ (r.endCycle : Int)

/-- `erase(size() - 1)`: nlohmann's `erase` throws for a position outside of the array. -/
def eraseLast (l : List ZoneNode) : Out (List ZoneNode) :=
  if l = [] then .std .outOfRange else .ok l.dropLast

/-- `erase(size() - 1)` on the `zones` of the object a pointer points to. -/
def eraseChild (p : List Nat) (l : List ZoneNode) : Out (List ZoneNode) := do
  let x ← readZone p l
  let k ← eraseLast x.kids
  modifyZone (fun y => match y with | .node s d _ => .node s d k) p l

/-- A start event, src/npeStats.cpp:619-639. -/
def ZoneDoc.open (d : ZoneDoc) (z : Zone) : Out ZoneDoc :=
  match d.it.stack.getLast? with
  | none => .ok { d with
      root := d.root ++ [.node z.timestamp none []]
      ptr := (z, [d.root.length]) :: d.ptr }
  | some (parent, _) => do
    let p ← d.pointer parent
    let x ← readZone p d.root
    let root ← modifyZone (fun y => match y with
      | .node s dn k => .node s dn (k ++ [.node z.timestamp none []])) p d.root
    return { d with root := root, ptr := (z, p ++ [x.kids.length]) :: d.ptr }

/-- `zone + "[" + count + "]"`, src/npeStats.cpp:645 and src/npeWorkloadIngest.cpp:298. -/
def zoneLabel (name : String) (count : Nat) : String := name ++ "[" ++ toString count ++ "]"

/-- An end event, src/npeStats.cpp:640-662.  `getLastEnclosingZone` of an empty stack is undefined
behaviour. -/
def ZoneDoc.close (region : Option Region) (d : ZoneDoc) (z : Zone) : Out ZoneDoc :=
  match d.it.stack.getLast? with
  | none => .ub
  | some (s, count) => do
    let p ← d.pointer s
    let root ← modifyZone (fun y => match y with
      | .node st _ k => .node st (some (zoneLabel s.zone count, z.timestamp)) k) p d.root
    match region with
    | none => return { d with root := root }
    | some r =>
      if r.zoneFully s.timestamp z.timestamp then return { d with root := root }
      else match d.it.stack.dropLast.getLast? with
        | none => do
          let root ← eraseLast root
          return { d with root := root }
        | some (parent, _) => do
          let q ← d.pointer parent
          let root ← eraseChild q root
          return { d with root := root }

/-- Body of the loop, src/npeStats.cpp:616-665. -/
def ZoneDoc.step (region : Option Region) (zs : List Zone) (d : ZoneDoc) (z : Zone) : Out ZoneDoc := do
  let d' ← match z.phase with
    | .zoneStart => d.open z
    | .zoneEnd => d.close region z
  let it ← d'.it.next zs
  return { d' with it := it }

/-- The zones of one core and processor, src/npeStats.cpp:610-667 (the iterator is at position `i` in
round `i`). -/
def emitZones (region : Option Region) (zs : List Zone) : Out (List ZoneNode) := do
  let d ← Out.foldlM (ZoneDoc.step region zs) {} zs
  return d.root

end NPE
