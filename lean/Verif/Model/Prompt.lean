import Verif.Model.Ingest
import Verif.Model.Topology

/-
The question asked before a workload file without the usual extension is read.
Citations relative to /repo/tt_npe/cpp.
-/

namespace NPE

/-- `tolower` of the C locale for the characters of ASCII. -/
def toLowerAscii (c : Char) : Char := if 65 ≤ c.toNat ∧ c.toNat ≤ 90 then Char.ofNat (c.toNat + 32) else c

/-- `promptUser`, include/npeUtil.hpp:66-78, with the text that can be read from the standard input.
`std::cin >> response` skips white space and takes one character; at the end of the input `response` is not
assigned, and looking at an uninitialised variable is undefined behaviour.  So is `tolower` of a negative
number, that is of a byte from 128 (the C standard; glibc returns the byte). -/
def promptUser (input : List Char) : Out Bool :=
  match input.dropWhile Fabric.isSpace with
  | [] => .ub
  | c :: _ => if 128 ≤ c.toNat then .ub else .ok (toLowerAscii c == 'y' || toLowerAscii c == 'Y')

/-- `loadJSONWorkloadFormat`, src/npeWorkloadIngest.cpp:31-219, with the question of lines 35-43: a missing
file is reported first, a file with the extension `.json` is read without a question. -/
def loadPrompted (fp : FP) (input : List Char) (path : String) (f : InputFile) : Out (Option Workload) :=
  match f with
  | .missing => .ok none
  | f =>
    if endsWith path ".json" then loadJSONWorkload fp true path f
    else do
      let a ← promptUser input
      loadJSONWorkload fp a path f

end NPE
