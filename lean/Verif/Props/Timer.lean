import Verif.Model.Timer
import Mathlib.Tactic.Linarith

/-
Property C145: what a timer measures and how often it prints, and the width of a divider.
-/

namespace NPE.Props
open NPE NPE.Timer

/-- The time from the construction to the first call, or to the destruction if there was none. -/
def measured (t0 : Int) (cs : List (Call × Int)) (tEnd : Int) : Int :=
  (match cs with
    | [] => tEnd
    | (_, t1) :: _ => t1) - t0

/-- What a timer of the given name says about `d` nanoseconds when it is called. -/
def report (name : List Char) (d : Int) : Call → List Said
  | .stop => []
  | .micros => [.micros (d / 1000).toNat]
  | .millis => [.millis (d / 1000000).toNat]
  | .printDelta => [.line name (d / 1000).toNat]

theorem calls_stopped {t : State} (h : t.stopped = true) (h0 : 0 ≤ t.endTime - t.startTime)
    (hb : t.endTime - t.startTime < 9223372036854775808) (cs : List (Call × Int)) :
    calls t cs = (t, cs.flatMap fun c => report t.name (t.endTime - t.startTime) c.1) := by
  have hst : ∀ now, stop now t = t := fun now => by simp [stop, h]
  have he : ∀ u : Int, 0 < u → elapsed u t = ((t.endTime - t.startTime) / u).toNat := by
    intro u hu
    unfold elapsed
    rw [Int.tdiv_eq_ediv_of_nonneg h0]
    have h1 : 0 ≤ (t.endTime - t.startTime) / u := Int.ediv_nonneg h0 hu.le
    have h2 : (t.endTime - t.startTime) / u ≤ t.endTime - t.startTime := Int.ediv_le_self _ h0
    rw [Int.emod_eq_of_lt h1 (by omega)]
  induction cs with
  | nil => rfl
  | cons c cs ih =>
    obtain ⟨c, now⟩ := c
    unfold calls
    cases c <;> simp [call, Timer.micros, Timer.millis, printDelta, hst, ih, report, he]

/-- C145 for a timer that is not moved.  Whatever is called, all answers are about the same time, that from the
construction to the first call; a timer prints when it is told to, and once at the end if nothing was called and it is
not silent. -/
theorem C145_timer (t0 : Int) (name : List Char) (silent : Bool) (cs : List (Call × Int)) (tEnd : Int)
    (h0 : 0 ≤ measured t0 cs tEnd) (hb : measured t0 cs tEnd < 9223372036854775808) :
    life t0 name silent cs tEnd =
      match cs with
      | [] => if silent then [] else report name (measured t0 cs tEnd) .printDelta
      | _ :: _ => cs.flatMap fun c => report name (measured t0 cs tEnd) c.1 := by
  cases cs with
  | nil =>
    cases silent with
    | true => simp [life, calls, make, destroy, stop]
    | false =>
      have := calls_stopped (t := ⟨t0, tEnd, name, true, false⟩) rfl h0 hb [(.printDelta, tEnd)]
      simp only [calls, call, List.append_nil, List.flatMap_cons, List.flatMap_nil] at this
      simp only [life, calls, make, destroy, stop, List.nil_append]
      exact (Prod.mk.inj this).2
  | cons c cs =>
    obtain ⟨c, t1⟩ := c
    have hsame : calls (make t0 name silent) ((c, t1) :: cs) =
        calls ⟨t0, t1, name, true, silent⟩ ((c, t1) :: cs) := by
      cases c <;> simp [calls, call, Timer.micros, Timer.millis, printDelta, make, stop]
    unfold life
    rw [hsame, calls_stopped (t := ⟨t0, t1, name, true, silent⟩) rfl h0 hb]
    simp [destroy, measured]

/-- The milliseconds are the whole thousands of the microseconds. -/
theorem C145_units (t0 : Int) (name : List Char) (silent : Bool) (c : Call × Int) (cs : List (Call × Int)) (tEnd : Int)
    (h0 : 0 ≤ c.2 - t0) (hb : c.2 - t0 < 9223372036854775808) (m n : Nat)
    (hm : Said.millis m ∈ life t0 name silent (c :: cs) tEnd) (hn : Said.micros n ∈ life t0 name silent (c :: cs) tEnd) :
    m = n / 1000 := by
  rw [C145_timer t0 name silent (c :: cs) tEnd h0 hb] at hm hn
  simp only [List.mem_flatMap] at hm hn
  obtain ⟨a, _, ha⟩ := hm
  obtain ⟨b, _, hb'⟩ := hn
  have e1 : m = (measured t0 (c :: cs) tEnd / 1000000).toNat := by
    unfold report at ha
    split at ha <;> simp_all
  have e2 : n = (measured t0 (c :: cs) tEnd / 1000).toNat := by
    unfold report at hb'
    split at hb' <;> simp_all
  have h0' : 0 ≤ measured t0 (c :: cs) tEnd := h0
  omega

/-- The claim for moved timers: a timer that was never told to print says one line altogether. -/
def C145_claim : Prop :=
  ∀ (t0 tEnd : Int) (name left : List Char), 0 ≤ tEnd - t0 →
    let (a, b) := moved left (make t0 name false)
    (destroy tEnd a ++ destroy tEnd b).length = 1

/-- C145 is violated for moved timers: a timer that is moved before it is stopped is also left running, and the
destructors of both print a line. -/
theorem C145_violated : ¬ C145_claim := by
  intro h
  have := h 0 5000 ['x'] [] (by norm_num)
  revert this
  decide

/-- A divider is 78 characters wide for titles of up to 74 characters; a longer title is an exception. -/
theorem C145_divider (title : List Char) (h : title.length < 4611686018427387904) :
    (title.length ≤ 74 → ∃ l, divider title = some l ∧ l.length = 78 ∧ (title = [] ∨ title <:+: l)) ∧
    (74 < title.length → divider title = none) := by
  unfold divider
  by_cases ht : title = []
  · subst ht
    refine ⟨fun _ => ?_, fun h => by simp at h⟩
    exact ⟨_, rfl, by decide, Or.inl rfl⟩
  · simp only [ne_eq, ht, not_false_eq_true, if_true]
    have hl : (' ' :: title ++ [' ']).length = title.length + 2 := by simp
    rw [hl]
    constructor
    · intro h74
      have e : (18446744073709551616 + 80 - (title.length + 2) % 18446744073709551616 - 4) % 18446744073709551616 =
          74 - title.length := by omega
      rw [e, if_pos (by omega)]
      refine ⟨_, rfl, ?_, Or.inr ?_⟩
      · simp only [List.length_cons, List.length_append, List.length_replicate, List.length_nil]
        omega
      · exact ⟨['-', '-', ' '], ' ' :: List.replicate (74 - title.length) '-', by simp⟩
    · intro h74
      rw [if_neg (by omega)]

/-- A timer of 1999 microseconds: it says the same again later, and nothing at the end. -/
example : life 1000000 "run".toList false [(.micros, 2999999), (.millis, 5000000), (.printDelta, 9000000)] 10000000 =
    [.micros 1999, .millis 1, .line "run".toList 1999] := by decide

/-- The timer of a simulation is stopped, read and says nothing. -/
example : life 7000 [] true [(.stop, 507000), (.micros, 600000)] 700000 = [.micros 500] := by decide

example : divider "Stats".toList =
    some "-- Stats ---------------------------------------------------------------------".toList := by decide +kernel

end NPE.Props
