import Verif.Model.Analyze

/-
Names of trace files, grouping and tables, said without the functions of the script.
-/

namespace NPE.Spec.Analyze

open NPE.Analyze

/-- The character of a digit. -/
def digit (d : Nat) : Char := Char.ofNat (48 + d)

/-- A non-empty string of decimal digits denotes a number. -/
inductive Denotes : List Char → Nat → Prop where
  | one (d : Nat) (h : d < 10) : Denotes [digit d] d
  | snoc (l : List Char) (n d : Nat) (hl : Denotes l n) (h : d < 10) : Denotes (l ++ [digit d]) (10 * n + d)

/-- A letter, digit or underscore. -/
def Word (c : Char) : Prop :=
  ('a' ≤ c ∧ c ≤ 'z') ∨ ('A' ≤ c ∧ c ≤ 'Z') ∨ ('0' ≤ c ∧ c ≤ '9') ∨ c = '_'

/-- The part of the name with the name of the operation: it is optional. -/
def OpPart (opName part : List Char) : Prop :=
  (opName = "UnknownOP".toList ∧ part = []) ∨ ((∀ c ∈ opName, Word c) ∧ part = opName ++ ['_'])

/-- The part of the name with the trace id: it is optional. -/
def TracePart (trace : Option Nat) (part : List Char) : Prop :=
  (trace = none ∧ part = []) ∨ ∃ n s, trace = some n ∧ Denotes s n ∧ part = "_traceID".toList ++ s

/-- Name of the trace file of a device, operation and trace. -/
def Names (name : List Char) (f : TraceFile) : Prop :=
  ∃ sdev part spid tpart, Denotes sdev f.dev ∧ OpPart f.opName part ∧ Denotes spid f.pid ∧ TracePart f.trace tpart ∧
    name = "noc_trace_dev".toList ++ sdev ++ ['_'] ++ part ++ "ID".toList ++ spid ++ tpart ++ ".json".toList

/-- The operation and trace that a trace file belongs to. -/
def Belongs (name : List Char) (u : OpUID) : Prop :=
  ∃ f, Names name f ∧ u.op = f.pid / 1024 ∧ u.trace = f.trace

end NPE.Spec.Analyze

namespace NPE.Spec.Analyze

open NPE.Analyze

/-- The datapoints of one result: one for each chip, none for the mesh. -/
def pointsOf : WorkerResult → List Datapoint
  | none => []
  | some (opName, uid, devs) => (devs.filter fun e => e.1 ≠ -1).map fun e => ⟨opName, uid, e.1, e.2⟩

/-- The datapoints of all results. -/
def points (rs : List WorkerResult) : List Datapoint := rs.flatMap pointsOf

/-- Results belong to different operations, and each has one entry per chip. -/
structure Separate (rs : List WorkerResult) : Prop where
  ops : rs.Pairwise fun a b => ∀ x y, a = some x → b = some y → x.2.1 ≠ y.2.1
  chips : ∀ x, some x ∈ rs → (x.2.2.map (·.1)).Nodup

end NPE.Spec.Analyze
