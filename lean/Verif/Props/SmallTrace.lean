import Verif.Model.Ingest

/-
The trace file of the tests, test/data/mcast-util-trace-small.json (relative to /repo/tt_npe/cpp).
-/

namespace NPE.Props.Conformance

/-- One multicast write of the trace, test/data/mcast-util-trace-small.json:10-24. -/
def write (time : Int) : Json :=
  .obj [("proc", .str "NCRISC"), ("sx", .int 1), ("sy", .int 1), ("dx", .int 2), ("dy", .int 1), ("noc", .str "NOC_0"),
    ("type", .str "WRITE_MULTICAST"), ("num_bytes", .int 64), ("mcast_start_x", .int 2), ("mcast_start_y", .int 1),
    ("mcast_end_x", .int 2), ("mcast_end_y", .int 1), ("timestamp", .int time)]

/-- The start or end of the zone, test/data/mcast-util-trace-small.json:2-9, 85-92. -/
def zone (phase : String) (time : Int) : Json :=
  .obj [("proc", .str "NCRISC"), ("sx", .int 1), ("sy", .int 1), ("zone", .str "unit_test_region"),
    ("zone_phase", .str phase), ("timestamp", .int time)]

/-- The trace file, test/data/mcast-util-trace-small.json. -/
def smallTrace : Json :=
  .arr [zone "ZONE_START" 0, write 100, write 200, write 300, write 400, write 500, zone "ZONE_END" 700]

end NPE.Props.Conformance
