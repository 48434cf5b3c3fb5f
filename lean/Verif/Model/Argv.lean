import Verif.Model.Cli

/-
The words of the command line and how `argparse` reads them as the options of tt_npe/py/pycli/tt_npe.py.  Citations
relative to /repo/tt_npe.

Simplifications: the rules of `argparse` are those of its documentation for the kinds of options that are used; words
that it reads by other rules (several short names in one word, ambiguous abbreviations, `--`) have the outcome `other`,
about which nothing is said.  `int` and `float` of Python are parameters.  What is printed is not modelled.
-/

namespace NPE.Cli

/-- The options, py/pycli/tt_npe.py:18-105, and `--help`, which `argparse` adds. -/
inductive Opt
  | cycles | device | congModel | workload | noInference | emit | isTrace | compress | scale | timelinePath | legacy
  | verbose | topology | help
  deriving DecidableEq, Repr

/-- The names of the options, py/pycli/tt_npe.py:18-105. -/
def optNames : List (String × Opt) :=
  [("-c", .cycles), ("--cycles-per-timestep", .cycles), ("-d", .device), ("--device", .device),
   ("--cong-model", .congModel), ("-w", .workload), ("--workload", .workload),
   ("--no-injection-rate-inference", .noInference), ("-e", .emit), ("--emit-timeline-file", .emit),
   ("-t", .isTrace), ("--workload-is-noc-trace", .isTrace), ("--compress-timeline-output-file", .compress),
   ("--scale-workload-schedule", .scale), ("--timeline-json-filepath", .timelinePath),
   ("--use-legacy-timeline-format", .legacy), ("-v", .verbose), ("--verbose", .verbose),
   ("--topology-json", .topology), ("-h", .help), ("--help", .help)]

/-- The options with a name, py/pycli/tt_npe.py:18-105. -/
def findOpt (w : List Char) : Option Opt := (optNames.find? fun e => e.1.toList == w).map (·.2)

/-- How many words follow an option: none with `store_true`, at most one with `nargs="?"`, otherwise one,
py/pycli/tt_npe.py:18-105. -/
inductive Arity
  | none | one | atMostOne
  deriving DecidableEq

/-- py/pycli/tt_npe.py:18-105. -/
def Opt.arity : Opt → Arity
  | .noInference | .emit | .isTrace | .compress | .legacy | .help => .none
  | .verbose => .atMostOne
  | _ => .one

/-- A word split at the first `=`, as `argparse` does for py/pycli/tt_npe.py:107. -/
def splitAtEq : List Char → Option (List Char × List Char)
  | [] => none
  | c :: r => if c = '=' then some ([], r) else (splitAtEq r).map fun e => (c :: e.1, e.2)

/-- What `argparse` takes for a negative number (for py/pycli/tt_npe.py:107). -/
def negativeNumber : List Char → Bool
  | '-' :: r =>
    (r.all Char.isDigit && !r.isEmpty) ||
      (match r.dropWhile Char.isDigit with
       | '.' :: s => s.all Char.isDigit && !s.isEmpty
       | _ => false)
  | _ => false

/-- A long name that is abbreviated, alone or joined with a text: exactly one name begins with it
(for py/pycli/tt_npe.py:107). -/
def abbreviation (w : List Char) : Option (Opt × Option (List Char)) :=
  match w with
  | '-' :: '-' :: _ =>
    let e : List Char × Option (List Char) := match splitAtEq w with
      | some e => (e.1, some e.2)
      | none => (w, none)
    match optNames.filter fun n => e.1.isPrefixOf n.1.toList with
    | [n] => some (n.2, e.2)
    | _ => none
  | _ => none

/-- A short name with the text right after it (for py/pycli/tt_npe.py:107). -/
def glued : List Char → Option (Opt × List Char)
  | '-' :: c :: x :: t => (findOpt ['-', c]).bind fun o => if o.arity = .none then none else some (o, x :: t)
  | _ => none

/-- Words that begin like the name of an option (for py/pycli/tt_npe.py:107). -/
def beginsName (w : List Char) : Bool :=
  match w with
  | '-' :: '-' :: _ =>
    let name := match splitAtEq w with
      | some e => e.1
      | none => w
    optNames.any fun e => name.isPrefixOf e.1.toList
  | '-' :: c :: _ => (findOpt ['-', c]).isSome
  | _ => false

/-- The kinds of words. -/
inductive Word
  | opt (o : Opt) (value : Option (List Char))
  | value
  | unknown
  | other
  deriving DecidableEq

/-- The kind of a word, decided before any option is read (for py/pycli/tt_npe.py:107). -/
def classify (w : List Char) : Word :=
  match w with
  | '-' :: r =>
    match findOpt w with
    | some o => .opt o none
    | none =>
      if r = [] then .value
      else
        match (splitAtEq w).bind fun e => (findOpt e.1).map fun o => (o, e.2) with
        | some e => if e.1.arity = .none ∧ r.head? ≠ some '-' then .other else .opt e.1 (some e.2)
        | none =>
          match abbreviation w with
          | some e => .opt e.1 e.2
          | none =>
            match glued w with
            | some e => .opt e.1 (some e.2)
            | none =>
              if beginsName w then .other
              else if negativeNumber w then .value
              else if ' ' ∈ w then .value
              else .unknown
  | _ => .value

/-- `int` and `float` of Python; the second gives the value of the number (for py/pycli/tt_npe.py:21,76). -/
structure Conv where
  int : String → Option Int
  float : String → Option ℚ

/-- What `parse_args` returns, py/pycli/tt_npe.py:18-107. -/
structure Parsed where
  args : Args := {}
  verbose : Int := 0
  topology : String := ""

/-- An option with a value is stored: conversion to its type, then the comparison with its choices,
py/pycli/tt_npe.py:18-105.  `none` if one of them fails. -/
def store (k : Conv) (o : Opt) (v : String) (p : Parsed) : Option Parsed :=
  match o with
  | .cycles => (k.int v).map fun n => { p with args := { p.args with cycles := n } }
  | .device => if v ∈ devices then some { p with args := { p.args with device := v } } else none
  | .congModel => if v ∈ models then some { p with args := { p.args with congModel := v } } else none
  | .workload => some { p with args := { p.args with workload := v } }
  | .scale => (k.float v).map fun q => { p with args := { p.args with scale := q } }
  | .timelinePath => some { p with args := { p.args with timelinePath := v } }
  | .verbose => (k.int v).map fun n => { p with verbose := n }
  | .topology => some { p with topology := v }
  | _ => none

/-- An option without a value is stored: `store_true` and `const`, py/pycli/tt_npe.py:46-103. -/
def storeFlag (o : Opt) (p : Parsed) : Parsed :=
  match o with
  | .noInference => { p with args := { p.args with noInference := true } }
  | .emit => { p with args := { p.args with emit := true } }
  | .isTrace => { p with args := { p.args with isTrace := true } }
  | .compress => { p with args := { p.args with compress := true } }
  | .legacy => { p with args := { p.args with legacy := true } }
  | .verbose => { p with verbose := 1 }
  | _ => p

/-- How `parse_args` ends: it returns, refuses the words (status 2), prints the help (status 0), or meets a word about
which nothing is said. -/
inductive Parsing
  | ok (p : Parsed)
  | refused
  | help
  | other

/-- The words are read from the left (for py/pycli/tt_npe.py:107).  `extra` tells whether a word was left over. -/
def readWords (k : Conv) : List (String × Word) → Parsed → Bool → Parsing
  | [], p, extra => if extra then .refused else .ok p
  | (_, .opt o (some v)) :: r, p, extra =>
    if o.arity = .none then .refused
    else match store k o (String.ofList v) p with
      | some p' => readWords k r p' extra
      | none => .refused
  | (_, .opt o none) :: (v, .value) :: r, p, extra =>
    match o.arity with
    | .none => if o = .help then .help else readWords k ((v, .value) :: r) (storeFlag o p) extra
    | _ => match store k o v p with
      | some p' => readWords k r p' extra
      | none => .refused
  | (_, .opt o none) :: r, p, extra =>
    match o.arity with
    | .one => .refused
    | _ => if o = .help then .help else readWords k r (storeFlag o p) extra
  | (_, .value) :: r, p, _ => readWords k r p true
  | (_, .unknown) :: r, p, _ => readWords k r p true
  | (_, .other) :: _, _, _ => .other

/-- `parser.parse_args()`, py/pycli/tt_npe.py:107. -/
def parseArgs (k : Conv) (words : List String) : Parsing :=
  let ws := words.map fun w => (w, classify w.toList)
  if ws.any fun e => match e.2 with | .other => true | _ => false then .other
  else readWords k ws {} false

/-- The whole program with the words of its command line, py/pycli/tt_npe.py:114-168; `none` for words about which
nothing is said.  `files` gives the file of each path. -/
def program (fp : FP) (ho : HashOrder) (ord : List (Int × List Int) → List (Int × List Int)) (k : Conv)
    (files : String → InputFile) (answer : Bool) (words : List String) : Option (Out Nat) :=
  match parseArgs k words with
  | .ok p => some (main fp ho ord
      ⟨files p.args.workload, if p.topology = "" then .missing else files p.topology, answer⟩ p.args)
  | .refused => some (.ok 2)
  | .help => some (.ok 0)
  | .other => none

end NPE.Cli
