import Verif.Props.Workload
import Verif.Proofs.NoDiverge

/-
The numbers that the documentation of `npe.Transfer` allows, cpp/pybind/bindings.cpp:250-270 (relative to
/repo/tt_npe): packets of more than one byte, at least one packet.

* `C164_violated`: packets of one byte are accepted on every device with two cores in a column.
* `C164_partial`: in accepted workloads of any origin (phases and ids may be anything, destinations unicast or multicast)
  all other numbers are the documented ones.
* `C164_refused`: a unicast transfer without packets or without bytes makes its workload refused, wherever it stands;
  nothing but the numbers and the places decides.
-/

namespace NPE.Props

open NPE.Workload

/-- The documented numbers. -/
structure Documented (t : Transfer) : Prop where
  size : 1 < t.packetSize
  count : 1 ≤ t.numPackets

/-- What C164 asks for. -/
def C164_claim (dev : Device) : Prop :=
  ∀ wl : Workload, wl.validate dev = .ok true → ∀ t ∈ wl.transfers, Documented t

/-- Property C164 is violated: packets of one byte are accepted. -/
theorem C164_violated (dev : Device) (hr : 1 < dev.rows) (hc : 0 < dev.cols) (hd : dev.isValidDeviceID 0 = true) :
    ¬ C164_claim dev := by
  intro h
  have hb : ¬ (1 < (1 : Nat)) := by decide
  have hv : (build [⟨[Transfer.make 1 1 ⟨0, 0, 0⟩ (.unicast ⟨0, 1, 0⟩) 1 0 .noc0], 0⟩]).validate dev = .ok true := by
    rw [(C02_validate_iff dev _ _).2]
    · intro ph hph t ht
      rw [List.mem_singleton] at hph
      subst hph
      rw [List.mem_singleton] at ht
      subst ht
      refine ⟨_, (validate_unicast dev _ _ rfl).2.1 ?_⟩
      have h1 : (0 : Int) < dev.rows := by omega
      simp [Transfer.validate, Transfer.make, Dest.deviceIDs, validCoord, validDst, hd]
      omega
    · intro ph hph t ht
      rw [List.mem_singleton] at hph
      subst hph
      rw [List.mem_singleton] at ht
      subst ht
      exact ⟨_, rfl⟩
  exact hb (h _ hv { Transfer.make 1 1 ⟨0, 0, 0⟩ (.unicast ⟨0, 1, 0⟩) 1 0 .noc0 with phaseId := 0, id := 0 }
    (by simp [build, Workload.transfers, Workload.addPhase, assignIds])).size

/-- Proved: in accepted workloads the numbers are the documented ones but for packets of one byte.  Missing: packets
of one byte. -/
theorem C164_partial (dev : Device) (wl : Workload) (h : wl.validate dev = .ok true) :
    ∀ t ∈ wl.transfers, t.packetSize ≠ 1 → Documented t := by
  intro t ht h1
  have := validate_true h t ht
  unfold Transfer.validate at this
  split at this
  · simp at this
  · have := Out.ok.inj this
    simp only [Bool.and_eq_true, decide_eq_true_eq] at this
    exact ⟨by omega, by omega⟩

/-- A transfer without packets or without bytes makes its workload refused. -/
theorem C164_refused (dev : Device) (phs : List Phase) (huni : ∀ ph ∈ phs, ∀ t ∈ ph.transfers, ∃ d, t.dst = .unicast d)
    {ph : Phase} (hph : ph ∈ phs) {t : Transfer} (ht : t ∈ ph.transfers) (h0 : t.packetSize = 0 ∨ t.numPackets = 0) :
    (build phs).validate dev = .ok false := by
  obtain ⟨⟨b, hb⟩, hiff⟩ := C02_validate_iff dev phs huni
  cases b with
  | false => exact hb
  | true =>
    obtain ⟨d, hd⟩ := hiff.1 hb ph hph t ht
    have := (validate_unicast dev t d hd.dst).2.2 hd
    unfold Transfer.validate at this
    rw [hd.dst] at this
    simp only [Dest.deviceIDs, Out.ok.injEq, Bool.and_eq_true, decide_eq_true_eq] at this
    omega

example : ¬ C164_claim (wormhole .exact false 1) :=
  C164_violated _ (by decide +kernel) (by decide +kernel) (by decide +kernel)

end NPE.Props
