import Verif.Model.Basic

/-
The timer that measures the run time, and the divider line.  Citations relative to /repo/tt_npe/cpp/include.
-/

namespace NPE
namespace Timer

/-- `ScopedTimer`, ScopedTimer.hpp:10-61.  Points in time are readings of `std::chrono::steady_clock` in nanoseconds
(64-bit numbers in the C++ code; here without bounds). -/
structure State where
  /-- `start_time` -/
  startTime : Int
  /-- `end_time`, the epoch until the timer is stopped. -/
  endTime : Int
  name : List Char
  stopped : Bool
  silent : Bool
  deriving DecidableEq, Repr

/-- The constructor, ScopedTimer.hpp:12-16, at the time `now`. -/
def make (now : Int) (name : List Char) (silent : Bool) : State := ⟨now, 0, name, false, silent⟩

/-- `stop`, ScopedTimer.hpp:28-33. -/
def stop (now : Int) (t : State) : State := if !t.stopped then { t with stopped := true, endTime := now } else t

/-- `duration_cast(end_time - start_time).count()` as `size_t`: integer division with truncation, then modulo 2^64. -/
def elapsed (unit : Int) (t : State) : Nat := ((t.endTime - t.startTime).tdiv unit % 18446744073709551616).toNat

/-- `getElapsedTimeMicroSeconds`, ScopedTimer.hpp:35-38. -/
def micros (now : Int) (t : State) : State × Nat := let t := stop now t; (t, elapsed 1000 t)

/-- `getElapsedTimeMilliSeconds`, ScopedTimer.hpp:40-43. -/
def millis (now : Int) (t : State) : State × Nat := let t := stop now t; (t, elapsed 1000000 t)

/-- What a timer says: a number that a call returns, or a line with the name and the microseconds. -/
inductive Said where
  | micros (n : Nat)
  | millis (n : Nat)
  | line (name : List Char) (n : Nat)
  deriving DecidableEq, Repr

/-- The calls of a timer. -/
inductive Call where
  | stop | micros | millis | printDelta
  deriving DecidableEq, Repr

/-- `printDelta`, ScopedTimer.hpp:45-48: `stop`, then the elapsed time, which calls `stop` again. -/
def printDelta (now : Int) (t : State) : State × Said :=
  let t := stop now t
  let (t, n) := micros now t
  (t, .line t.name n)

/-- A call at the time `now`. -/
def call (now : Int) (t : State) : Call → State × List Said
  | .stop => (stop now t, [])
  | .micros => let (t, n) := micros now t; (t, [.micros n])
  | .millis => let (t, n) := millis now t; (t, [.millis n])
  | .printDelta => let (t, l) := printDelta now t; (t, [l])

/-- The destructor, ScopedTimer.hpp:18-25. -/
def destroy (now : Int) (t : State) : List Said :=
  if !t.stopped then
    let t := stop now t
    if !t.silent then [(printDelta now t).2] else []
  else []

/-- A sequence of calls. -/
def calls (t : State) : List (Call × Int) → State × List Said
  | [] => (t, [])
  | (c, now) :: rest =>
    let (t, a) := call now t c
    let (t, b) := calls t rest
    (t, a ++ b)

/-- The life of a timer: construction, calls and destruction at given times. -/
def life (t0 : Int) (name : List Char) (silent : Bool) (cs : List (Call × Int)) (tEnd : Int) : List Said :=
  let (t, a) := calls (make t0 name silent) cs
  a ++ destroy tEnd t

/-- The move constructor, ScopedTimer.hpp:52 (`= default`): member by member; `left` is the name that remains in the old
timer.  Returns the new and the old timer. -/
def moved (left : List Char) (t : State) : State × State := (t, { t with name := left })

/-- `printDiv`, npeUtil.hpp:80-86: the line that is printed, without the new lines before and after it.  `bar_len` is a
`size_t`, and a string of 2^63 characters or more cannot be constructed (`none`: `std::length_error`). -/
def divider (title : List Char) : Option (List Char) :=
  let padded := if title ≠ [] then ' ' :: title ++ [' '] else []
  let barLen := (18446744073709551616 + 80 - padded.length % 18446744073709551616 - 4) % 18446744073709551616
  if barLen < 9223372036854775808 then some ('-' :: '-' :: padded ++ List.replicate barLen '-')
  else none

end Timer
end NPE
