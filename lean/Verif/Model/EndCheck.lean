import Verif.Model.DepTracker

/-
The check of the dependencies when a simulation ends, src/npeEngine.cpp.
-/

namespace NPE

/-- The condition under which "Some dependencies not satisfied!" is logged at the end of a run, src/npeEngine.cpp:334-336.  The
loop logs and goes on, so `simLoop` leaves it out. -/
def unsatisfied (tk : Tracker) : Bool := !tk.sanityCheck || !tk.allComplete

end NPE
