import Verif.Model.Document

/-
Writing the timeline files: `npeCompressionUtil::compressToFile`, src/npeCompressionUtil.cpp:13-59, and
`writeTimelineToFile`, src/npeStats.cpp:777-798.  Citations relative to /repo/tt_npe/cpp.

The two libraries (nlohmann::json for the text, zstd for the compression), the operating system and the file streams
are parameters.  Simplifications: a document is written by one `write`, of which the operating system takes a
beginning; running out of memory is not modelled; text and names are not decoded.
-/

namespace NPE

abbrev Bytes := List UInt8

/-- The functions of the libraries that are used here. -/
structure Library where
  /-- `json::dump(indent)`; `none`: it throws (a text that is not UTF-8) -/
  dump : Int → Json → Option Bytes
  /-- `ZSTD_compressBound`; `none`: `ZSTD_isError` -/
  bound : Nat → Option Nat
  /-- `ZSTD_compress` into a buffer of the given size, `ZSTD_CLEVEL_DEFAULT`; `none`: `ZSTD_isError` -/
  compress : Nat → Bytes → Option Bytes

/-- What the operating system and the streams do. -/
structure Os where
  /-- a file of this name can be opened for writing -/
  opens : List Char → Bool
  /-- how many of the given bytes end up in the file (any number that is too large: all) -/
  takes : List Char → Bytes → Nat
  /-- shorter texts stay in the buffer of the stream until it is closed -/
  buffer : Nat

/-- A line on the error output or in the log. -/
inductive Complaint where
  /-- "Error determining compression bound", src/npeCompressionUtil.cpp:20 -/
  | bound
  /-- "Compression error", src/npeCompressionUtil.cpp:38 -/
  | compression
  /-- "Error opening file for writing", src/npeCompressionUtil.cpp:45, and "Was not able to open stats file",
  src/npeStats.cpp:789 -/
  | opening (name : List Char)
  /-- "Error writing compressed data to file", src/npeCompressionUtil.cpp:51 -/
  | writing (name : List Char)
  /-- "Error writing stats file", src/npeStats.cpp:796 -/
  | exception (name : List Char)
  deriving DecidableEq

/-- The files, and what was complained about so far. -/
structure Disk where
  files : List Char → Option Bytes
  complaints : List Complaint := []

namespace Disk

/-- One more complaint. -/
def complain (d : Disk) (c : Complaint) : Disk := { d with complaints := d.complaints ++ [c] }

/-- The file `name` gets the content `b`. -/
def set (d : Disk) (name : List Char) (b : Bytes) : Disk :=
  { d with files := fun x => if x = name then some b else d.files x }

end Disk

/-- `std::ofstream(name)`: the file is created or emptied. -/
def openFile (os : Os) (name : List Char) (d : Disk) : Option Disk :=
  if os.opens name then some (d.set name []) else none

/-- Writing `b` to the file that was opened, and closing it. -/
def putFile (os : Os) (name : List Char) (b : Bytes) (d : Disk) : Disk := d.set name (b.take (os.takes name b))

/-- `outFile.good()` after `write`, src/npeCompressionUtil.cpp:49-50: false if not everything could be written, but only
for texts that do not stay in the buffer. -/
def writtenGood (os : Os) (name : List Char) (b : Bytes) : Bool :=
  decide (b.length ≤ os.takes name b ∨ b.length < os.buffer)

/-- `npeCompressionUtil::compressToFile`, src/npeCompressionUtil.cpp:13-58.  The result of `close` (line 56) is not
looked at. -/
def compressToFile (lib : Library) (os : Os) (contents : Bytes) (name : List Char) (d : Disk) : Out (Bool × Disk) := do
  Out.assert (decide (0 < contents.length))
  match lib.bound contents.length with
  | none => return (false, d.complain .bound)
  | some n =>
    match lib.compress n contents with
    | none => return (false, d.complain .compression)
    | some b =>
      match openFile os name d with
      | none => return (false, d.complain (.opening name))
      | some d' =>
        if writtenGood os name b then return (true, putFile os name b d')
        else return (false, (putFile os name b d').complain (.writing name))

/-- `writeTimelineToFile`, src/npeStats.cpp:777-798.  `name` is the name with the suffix of line 784, see
`TimelineConfig.fileName`.  An `npeException` is not caught in line 795: it is derived from `std::exception`
privately (include/npeCommon.hpp:38).  The result of `compressToFile` is not looked at (line 785). -/
def writeTimeline (lib : Library) (os : Os) (compress : Bool) (name : List Char) (j : Json) (d : Disk) : Out Disk :=
  if compress then
    match lib.dump (-1) j with
    | none => .ok (d.complain (.exception name))
    | some text => compressToFile lib os text name d >>= fun r => .ok r.2
  else
    match openFile os name d with
    | none => .ok (d.complain (.opening name))
    | some d' =>
      match lib.dump 2 j with
      | none => .ok (d'.complain (.exception name))
      | some text => .ok (putFile os name text d')

/-- All documents of a run in order, src/npeStats.cpp:818-873. -/
def writeAll (lib : Library) (os : Os) (compress : Bool) (files : List (List Char × Json)) (d : Disk) : Out Disk :=
  Out.foldlM (fun d f => writeTimeline lib os compress f.1 f.2 d) d files

/-- `runNPE` and the disk that it leaves behind, src/npeAPI.cpp:42-54. -/
def Api.runNPEDisk (fp : FP) (ho : HashOrder) (ord : List (Int × List Int) → List (Int × List Int)) (api : Api)
    (tc : TimelineConfig) (lib : Library) (os : Os) (wl : Workload) (d : Disk) : Out (Result × Disk) :=
  api.runNPEFiles fp ho ord tc wl >>= fun r =>
    match writeAll lib os tc.compress r.2 d with
    | .exc e => .ok (.inr e, d)
    | x => x >>= fun d' => .ok (r.1, d')

end NPE
