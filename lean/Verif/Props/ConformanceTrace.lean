import Verif.Props.Mcast
import Verif.Props.SmallTrace
-- only so that the two files, which need much memory, are not built at the same time
import Verif.Props.Cli

/-
The test of the multicast utilisation with a trace file, on the model (test/test_npe_api.cpp:30-52, relative to
/repo/tt_npe/cpp).  A test of the model, not a proof about it; `C107_share_partial` and `C107_trace` hold for all inputs.
-/

namespace NPE.Props.Conformance

/-- What the test runs, test/test_npe_api.cpp:31-41, in exact arithmetic. -/
def run : Out (Option Result) :=
  createWorkload .exact true "cpp/test/data/mcast-util-trace-small.json" "wormhole_b0" true (.doc smallTrace) >>= fun w =>
  match w with
  | none => .ok none
  | some wl => Api.make .exact { deviceName := "wormhole_b0", congestionModel := "fast", cyclesPerTimestep := 32 } >>= fun api =>
    api.runNPE .exact ⟨id, id⟩ wl >>= fun r => .ok (some r)

/-- The statistics of the mesh device, test/test_npe_api.cpp:42-45. -/
def mesh : Out (Option Result) → Option (Summary)
  | .ok (some (.inl rep)) => (rep.lookup MESH_DEVICE).map (·.summary)
  | _ => none

set_option maxRecDepth 100000 in
/-- ValidatesMulticastUtilizationFromTrace, lines 46-52: both are positive and their ratio is one. -/
example : (mesh run).map (fun s => (s.avgLinkUtil, s.avgMcastUtil)) =
    some (.num (14893 / 437760), .num (14893 / 437760)) := by decide +kernel

end NPE.Props.Conformance
