import Verif.Proofs.PhasesOutput
import Verif.Props.Fair
import Verif.Props.Api

/-
Property C125 for everything that is put out: results, statistics, files and failures do not depend on how transfers are
divided into phases.
-/

namespace NPE.Props
open NPE NPE.Spec NPE.Spec.Fluid

/-- Two divisions of the same transfers into phases, with the same golden results, groups and zones. -/
theorem redivided {phs phs' : List Phase}
    (hc : (phs.flatMap (·.transfers)).map content = (phs'.flatMap (·.transfers)).map content) (p p' : Option String)
    (n : Nat) (g : GoldenMap) (z : List ((Coord × RiscType) × List Zone)) :
    Redivided true { Workload.build phs with sourcePath := p, numTransferGroups := n, golden := g, zones := z }
      { Workload.build phs' with sourcePath := p', numTransferGroups := n, golden := g, zones := z } := by
  have h := redivided_build (k := true) (phs := phs) (phs' := phs') hc
  exact ⟨⟨h.transfers, rfl, fun _ => rfl, fun _ => rfl⟩, h.gbl, h.left, h.right⟩

/-- C125 for results: estimates, statistics of all devices, error codes, exceptions and undefined behaviour are the same,
for any configuration, rounding and order of the hash tables, and for invalid workloads too. -/
theorem C125_results (fp : FP) (ho : HashOrder) (api : Api) (phs phs' : List Phase)
    (hc : (phs.flatMap (·.transfers)).map content = (phs'.flatMap (·.transfers)).map content) (p p' : Option String)
    (n : Nat) (g : GoldenMap) (z : List ((Coord × RiscType) × List Zone)) :
    api.runNPE fp ho { Workload.build phs with sourcePath := p, numTransferGroups := n, golden := g, zones := z } =
      api.runNPE fp ho { Workload.build phs' with sourcePath := p', numTransferGroups := n, golden := g, zones := z } :=
  runNPE_bare fp ho api (redivided hc p p' n g z)

/-- C125 for files: the timelines are the same, too. -/
theorem C125_files (fp : FP) (ho : HashOrder) (ord : List (Int × List Int) → List (Int × List Int)) (api : Api)
    (tc : TimelineConfig) (phs phs' : List Phase)
    (hc : (phs.flatMap (·.transfers)).map content = (phs'.flatMap (·.transfers)).map content) (p p' : Option String)
    (n : Nat) (g : GoldenMap) (z : List ((Coord × RiscType) × List Zone)) :
    api.runNPEFiles fp ho ord tc { Workload.build phs with sourcePath := p, numTransferGroups := n, golden := g, zones := z } =
      api.runNPEFiles fp ho ord tc
        { Workload.build phs' with sourcePath := p', numTransferGroups := n, golden := g, zones := z } :=
  runNPEFiles_bare fp ho ord api tc (redivided hc p p' n g z)

/-- Validation: dividing the transfers differently makes no workload valid or invalid. -/
theorem C125_valid (dev : Device) (phs phs' : List Phase)
    (hc : (phs.flatMap (·.transfers)).map content = (phs'.flatMap (·.transfers)).map content) :
    (Workload.build phs).validate dev = (Workload.build phs').validate dev :=
  (validate_bare dev (redivided_build (k := true) (phs := phs) (phs' := phs') hc)).symm

/-- What a complete run reports for phases. -/
def reportedPhases (phs : List Phase) : Option (List (Int × Nat × Nat)) :=
  Props.cycles (sampleApi.runNPE .exact ⟨id, id⟩ { Workload.build phs with golden := [(0, (0, 1000)), (-1, (0, 1000))] })

/-- Two transfers into one core share it, although they are in different phases. -/
example :
    let a := Transfer.make 4096 1 ⟨0, 0, 1⟩ (.unicast ⟨0, 1, 1⟩) 20 0 .noc0
    let b := Transfer.make 4096 1 ⟨0, 0, 0⟩ (.unicast ⟨0, 1, 1⟩) 20 0 .noc0
    reportedPhases [⟨[a], 0⟩, ⟨[b], 0⟩] = some [(0, 292, 292), (-1, 292, 292)] ∧
    reportedPhases [⟨[a, b], 0⟩] = some [(0, 292, 292), (-1, 292, 292)] ∧
    reportedPhases [⟨[], 0⟩, ⟨[a, b], 0⟩, ⟨[], 0⟩] = some [(0, 292, 292), (-1, 292, 292)] := by decide +kernel

/-! ### C149: labels -/

/-- Everything of a transfer except its identifiers, its zone and its event type; of the event type only whether it is
that of multicast writes. -/
def unlabelled (t : Transfer) : Transfer :=
  { content t with
    zonePath := ""
    eventType := if t.eventType = "WRITE_MULTICAST" then "WRITE_MULTICAST" else "" }

theorem plain_unlabelled (t : Transfer) : plain false t = unlabelled t := by
  by_cases h : t.eventType = "WRITE_MULTICAST" <;> simp [plain, noPhase, unlabelled, content, h]

/-- C149: event types (other than that of multicast writes), zones of transfers, the zones of the cores, the number of
transfer groups and the path of the source have no influence on estimates, statistics and failures, for any configuration,
rounding and order of the hash tables. -/
theorem C149 (fp : FP) (ho : HashOrder) (api : Api) (phs phs' : List Phase)
    (hc : (phs.flatMap (·.transfers)).map unlabelled = (phs'.flatMap (·.transfers)).map unlabelled) (p p' : Option String)
    (n n' : Nat) (g : GoldenMap) (z z' : List ((Coord × RiscType) × List Zone)) :
    api.runNPE fp ho { Workload.build phs with sourcePath := p, numTransferGroups := n, golden := g, zones := z } =
      api.runNPE fp ho { Workload.build phs' with sourcePath := p', numTransferGroups := n', golden := g, zones := z' } := by
  have h := redivided_build (k := false) (phs := phs) (phs' := phs') (by
    rw [List.map_congr_left fun t _ => plain_unlabelled t, hc]
    exact (List.map_congr_left fun t _ => plain_unlabelled t).symm)
  exact runNPE_bare fp ho api (k := false)
    ⟨⟨h.transfers, rfl, fun hk => (by cases hk), fun hk => (by cases hk)⟩, h.gbl, h.left, h.right⟩

/-- The multicast utilisation and the average link utilisation that a run reports for the mesh. -/
def multicastShare (t : Transfer) : Option (Dbl × Dbl) :=
  match sampleApi.runNPE .exact ⟨id, id⟩
      { Workload.build [⟨[t], 0⟩] with golden := [(0, (0, 1000)), (-1, (0, 1000))] } with
  | .ok (.inl r) => (r.lookup (-1)).map fun d => (d.summary.avgMcastUtil, d.summary.avgLinkUtil)
  | _ => none

/-- The exception is needed: the same transfer counts for the multicast utilisation or not, depending on its event type
alone. -/
theorem C149_exception :
    multicastShare (Transfer.make 4096 1 ⟨0, 0, 1⟩ (.unicast ⟨0, 1, 1⟩) 20 0 .noc0 "WRITE_MULTICAST") =
      some (.num (25 / 9), .num (25 / 9)) ∧
    multicastShare (Transfer.make 4096 1 ⟨0, 0, 1⟩ (.unicast ⟨0, 1, 1⟩) 20 0 .noc0 "READ") =
      some (.num 0, .num (25 / 9)) := by decide +kernel

/-- Two transfers with different labels, in one and in two phases. -/
example :
    let a := Transfer.make 4096 1 ⟨0, 0, 1⟩ (.unicast ⟨0, 1, 1⟩) 20 0 .noc0 "READ" "KERNEL[0]"
    let b := Transfer.make 4096 1 ⟨0, 0, 0⟩ (.unicast ⟨0, 1, 1⟩) 20 0 .noc0 "WRITE_"
    let a' := Transfer.make 4096 1 ⟨0, 0, 1⟩ (.unicast ⟨0, 1, 1⟩) 20 0 .noc0 "FABRIC_UNICAST_WRITE"
    let b' := Transfer.make 4096 1 ⟨0, 0, 0⟩ (.unicast ⟨0, 1, 1⟩) 20 0 .noc0 "" "ZONE[3]"
    [a, b].map unlabelled = [a', b'].map unlabelled ∧ a ≠ a' ∧
    reportedPhases [⟨[a, b], 0⟩] = some [(0, 292, 292), (-1, 292, 292)] ∧
    reportedPhases [⟨[a'], 0⟩, ⟨[b'], 0⟩] = some [(0, 292, 292), (-1, 292, 292)] := by decide +kernel

end NPE.Props
