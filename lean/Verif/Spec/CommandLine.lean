import Verif.Model.Argv

/-
What a user asks for on the command line, independent of how the words are read.
-/

namespace NPE.Spec.CommandLine

open NPE.Cli

/-- One request. -/
inductive Request
  | cycles (n : Int)
  | device (s : String)
  | congModel (s : String)
  | workload (s : String)
  | scale (q : ℚ)
  | timelinePath (s : String)
  | topology (s : String)
  | verbosity (n : Int)
  | noInference | emit | isTrace | compress | legacy

/-- The names by which it can be asked, as in the help of the program. -/
def Request.names : Request → List String
  | .cycles _ => ["-c", "--cycles-per-timestep"]
  | .device _ => ["-d", "--device"]
  | .congModel _ => ["--cong-model"]
  | .workload _ => ["-w", "--workload"]
  | .scale _ => ["--scale-workload-schedule"]
  | .timelinePath _ => ["--timeline-json-filepath"]
  | .topology _ => ["--topology-json"]
  | .verbosity _ => ["-v", "--verbose"]
  | .noInference => ["--no-injection-rate-inference"]
  | .emit => ["-e", "--emit-timeline-file"]
  | .isTrace => ["-t", "--workload-is-noc-trace"]
  | .compress => ["--compress-timeline-output-file"]
  | .legacy => ["--use-legacy-timeline-format"]

/-- All names that the program knows. -/
def knownNames : List String :=
  ["-h", "--help", "-c", "--cycles-per-timestep", "-d", "--device", "--cong-model", "-w", "--workload",
   "--no-injection-rate-inference", "-e", "--emit-timeline-file", "-t", "--workload-is-noc-trace",
   "--compress-timeline-output-file", "--scale-workload-schedule", "--timeline-json-filepath",
   "--use-legacy-timeline-format", "-v", "--verbose", "--topology-json"]

/-- A request may be called by one of its names, or by the beginning of a long name with which no other name begins. -/
inductive Request.Called (r : Request) (n : String) : Prop
  | full : n ∈ r.names → Called r n
  | abbreviated {name : String} : name ∈ r.names → n.toList.take 2 = ['-', '-'] → n.toList <+: name.toList →
      (∀ name' ∈ knownNames, n.toList <+: name'.toList → name' = name) → Called r n

/-- The text after the name says what is asked for. -/
def Request.Text (k : Conv) : Request → String → Prop
  | .cycles n, t => k.int t = some n
  | .device s, t => t = s ∧ s ∈ ["wormhole_b0", "N150", "N300", "T3K", "blackhole", "P100", "P150"]
  | .congModel s, t => t = s ∧ s ∈ ["none", "fast"]
  | .workload s, t => t = s
  | .scale q, t => k.float t = some q
  | .timelinePath s, t => t = s
  | .topology s, t => t = s
  | .verbosity n, t => k.int t = some n
  | _, _ => False

/-- The name alone suffices. -/
def Request.Bare : Request → Prop
  | .noInference | .emit | .isTrace | .compress | .legacy => True
  | .verbosity n => n = 1
  | _ => False

/-- Texts that may be a word of their own: those that do not begin with a dash, negative numbers, and texts with a blank
that begin neither with two dashes nor with a short name. -/
inductive Separate (t : String) : Prop
  | plain : t.toList.head? ≠ some '-' → Separate t
  | whole {ds : List Char} : ds ≠ [] → (∀ c ∈ ds, c.isDigit = true) → t.toList = '-' :: ds → Separate t
  | decimal {ds es : List Char} : es ≠ [] → (∀ c ∈ ds, c.isDigit = true) → (∀ c ∈ es, c.isDigit = true) →
      t.toList = '-' :: (ds ++ '.' :: es) → Separate t
  | blank {c : Char} {r : List Char} : c ≠ '-' → (∀ n ∈ knownNames, n.toList ≠ ['-', c]) → ' ' ∈ c :: r →
      t.toList = '-' :: c :: r → Separate t

/-- The words of a request: a name; a name and a text that can be a word of its own; a name and any text joined by an
equals sign; a short name with a text right after it that does not begin with an equals sign. -/
inductive Spelled (k : Conv) (r : Request) : List String → Prop
  | bare {name : String} : r.Called name → r.Bare → Spelled k r [name]
  | apart {name t : String} : r.Called name → r.Text k t → Separate t → Spelled k r [name, t]
  | joined {name t : String} : r.Called name → r.Text k t → Spelled k r [name ++ "=" ++ t]
  | glued {name t : String} : name ∈ r.names → name.toList.length = 2 → r.Text k t → t ≠ "" →
      t.toList.head? ≠ some '=' → Spelled k r [name ++ t]

/-- The last of the requests that concern one value, or its default. -/
def lastOr {α : Type} (f : Request → Option α) (rs : List Request) (d : α) : α := (rs.filterMap f).getLast?.getD d

/-- What is asked for by a list of requests. -/
structure Meant (rs : List Request) (p : Parsed) : Prop where
  cycles : p.args.cycles = lastOr (fun | .cycles n => some n | _ => none) rs 32
  device : p.args.device = lastOr (fun | .device s => some s | _ => none) rs "wormhole_b0"
  congModel : p.args.congModel = lastOr (fun | .congModel s => some s | _ => none) rs "fast"
  workload : p.args.workload = lastOr (fun | .workload s => some s | _ => none) rs ""
  scale : p.args.scale = lastOr (fun | .scale q => some q | _ => none) rs 0
  timelinePath : p.args.timelinePath = lastOr (fun | .timelinePath s => some s | _ => none) rs "npe_timeline.json"
  topology : p.topology = lastOr (fun | .topology s => some s | _ => none) rs ""
  verbosity : p.verbose = lastOr (fun | .verbosity n => some n | _ => none) rs 0
  noInference : p.args.noInference = true ↔ .noInference ∈ rs
  emit : p.args.emit = true ↔ .emit ∈ rs
  isTrace : p.args.isTrace = true ↔ .isTrace ∈ rs
  compress : p.args.compress = true ↔ .compress ∈ rs
  legacy : p.args.legacy = true ↔ .legacy ∈ rs

end NPE.Spec.CommandLine
