import Verif.Proofs.Binary
import Verif.Proofs.Bindings

/-
Property theorems about workloads built through the Python bindings: C140.
-/

namespace NPE.Props
open NPE.Spec.Bind

/-! ### C140: building in Python and loading from a file give the same workload -/

/-- C140 for programs that Python accepts: the file that says the same is loaded as the same workload (apart from its
path), and every simulation of it gives the same result.  Missing: files whose numbers Python refuses, see
`C140_violated`. -/
theorem C140_partial (fp : FP) (phases : List (List Bind.Args)) (golden : Option Int) (j : Json)
    (hj : SaysAll fp phases golden j) (wl : Workload)
    (h : Bind.workload fp phases (golden.map fun n => [(0, 0, n)]) = .ok wl) (answer : Bool) (path : String)
    (hp : endsWith path ".json" = true ∨ answer = true) :
    ∃ w, loadJSONWorkload fp answer path (.doc j) = .ok (some w) ∧ w = { wl with sourcePath := some path } ∧
      ∀ ho (api : Api), api.runNPE fp ho w = api.runNPE fp ho wl := by
  refine ⟨wl.withPath (some path), ?_, rfl, fun ho api => runNPE_path fp ho api wl _⟩
  obtain ⟨⟨o, rfl⟩, ⟨l, hl, hphases⟩, hg⟩ := hj
  unfold Bind.workload at h
  obtain ⟨w0, h0, h⟩ := Out.bind_eq_ok.mp h
  have hload : ∃ g, loadGolden (.obj o) = .ok (({} : Workload).withGolden g) ∧ wl = w0.withGolden g := by
    cases golden with
    | none =>
      simp only [Option.map_none] at h hg
      refine ⟨w0.golden, ?_, (Out.ok.inj h).symm⟩
      unfold loadGolden
      rw [hg]
      simp only
      have : w0.golden = [] := by
        have e := says_phases hphases ([] : GoldenMap) h0
        have key : ∀ (ps : List (List Bind.Args)) (a b : Workload), Out.foldlM (Bind.addPhase fp) a ps = .ok b →
            b.golden = a.golden := by
          intro ps
          induction ps with
          | nil => intro a b hh; rw [← Out.ok.inj hh]
          | cons p ps ih =>
            intro a b hh
            rw [Out.foldlM_cons] at hh
            obtain ⟨c, c1, hh⟩ := Out.bind_eq_ok.mp hh
            rw [ih c b hh]
            unfold Bind.addPhase at c1
            obtain ⟨xs, _, c1⟩ := Out.bind_eq_ok.mp c1
            rw [← Out.ok.inj c1]
            rfl
        exact key _ _ _ h0
      rw [this]
      rfl
    | some n =>
      simp only [Option.map_some] at h hg
      obtain ⟨c, c1, c2, c3⟩ := hg
      unfold Bind.setGolden at h
      obtain ⟨g, g1, h⟩ := Out.bind_eq_ok.mp h
      rw [Out.mapM_cons] at g1
      obtain ⟨e, e1, g1⟩ := Out.bind_eq_ok.mp g1
      unfold Bind.goldenEntry at e1
      split at e1
      swap
      · cases e1
      · next hb =>
        have hge : g = [(0, 0, n.toNat)] := by
          rw [← Out.ok.inj g1, ← Out.ok.inj e1]; rfl
        subst hge
        refine ⟨(({} : Workload).setGoldenResultCycles [(0, 0, n.toNat)]).golden, ?_, ?_⟩
        · unfold loadGolden
          rw [c1]
          simp only
          rw [c3]
          simp only
          rw [Nat.mod_eq_of_lt (by have := hb.2.2.2; simp only at this; omega)]
          rfl
        · rw [← Out.ok.inj h]
          rfl
  obtain ⟨g, g1, g2⟩ := hload
  unfold loadJSONWorkload
  simp only
  have hc : (!endsWith path ".json" && !answer) = false := by
    rcases hp with h | h <;> rw [h] <;> simp
  rw [hc]
  simp only [Bool.false_eq_true, if_false]
  have hd : loadDocument fp (.obj o) = .ok (some wl) := by
    unfold loadDocument
    simp only
    rw [g1, Out.bind_ok, hl]
    simp only
    rw [says_phases hphases g h0, g2]
    rfl
  rw [hd]
  rfl

/-- C140: what Python accepts is taken as given: numbers of packets, sizes and the NoC always, offsets that are not
negative, and coordinates of 16 bits. -/
theorem C140_accepted (fp : FP) (a : Bind.Args) (x : Transfer) (h : Bind.transfer fp a = .ok x) :
    (x.packetSize : Int) = a.packetSize ∧ (x.numPackets : Int) = a.numPackets ∧ x.noc = a.noc ∧
    x.injectionRate = fp.f32.fl a.injectionRate ∧ (0 ≤ a.offset → (x.offset : Int) = a.offset) ∧
    (∀ d r c : Int, a.src = (d, r, c) → (-32768 ≤ d ∧ d < 32768) → (-32768 ≤ r ∧ r < 32768) →
      (-32768 ≤ c ∧ c < 32768) → x.src = ⟨d, r, c⟩) ∧
    (∀ d r c : Int, a.dst = .core (d, r, c) → (-32768 ≤ d ∧ d < 32768) → (-32768 ≤ r ∧ r < 32768) →
      (-32768 ≤ c ∧ c < 32768) → x.dst = .unicast ⟨d, r, c⟩) := by
  unfold Bind.transfer at h
  obtain ⟨s, h1, h⟩ := Out.bind_eq_ok.mp h
  obtain ⟨d, h2, h⟩ := Out.bind_eq_ok.mp h
  obtain ⟨p, h3, h⟩ := Out.bind_eq_ok.mp h
  obtain ⟨n, h4, h⟩ := Out.bind_eq_ok.mp h
  obtain ⟨o, h5, h⟩ := Out.bind_eq_ok.mp h
  have hmk : ∀ d r c : Int, (-32768 ≤ d ∧ d < 32768) → (-32768 ≤ r ∧ r < 32768) → (-32768 ≤ c ∧ c < 32768) →
      mkCoord d r c = ⟨d, r, c⟩ := by
    intro d r c h1 h2 h3
    have e : ∀ z : Int, (-32768 ≤ z ∧ z < 32768) → toI16 z = z := by
      intro z hz
      unfold toI16
      simp only
      split <;> omega
    unfold mkCoord
    rw [e d h1, e r h2, e c h3]
  rw [← Out.ok.inj h]
  refine ⟨(Bind.u32_ok h3).1, (Bind.u32_ok h4).1, rfl, rfl, ?_, ?_, ?_⟩
  · intro ho
    show ((toU32 o : Nat) : Int) = a.offset
    obtain ⟨e1, _, e2⟩ := Bind.int_ok h5
    rw [e1]
    unfold toU32
    omega
  · intro d r c hs b1 b2 b3
    show s = _
    rw [Bind.coord_ok h1, hs]
    exact hmk d r c b1 b2 b3
  · intro d' r c hs b1 b2 b3
    show d = _
    rw [hs] at h2
    unfold Bind.DstArg.dest at h2
    simp only at h2
    obtain ⟨k, k1, h2⟩ := Out.bind_eq_ok.mp h2
    rw [← Out.ok.inj h2, Bind.coord_ok k1]
    exact congrArg _ (hmk d' r c b1 b2 b3)

/-- Arguments in Python and an entry of a file that says the same. -/
def pyArgs (offset : Int) : Bind.Args := ⟨2048, 3, (0, 1, 1), .core (0, 2, 1), 20, offset, .noc1⟩
def pyEntry (offset : Int) : Json := .obj [("packet_size", .int 2048), ("num_packets", .int 3), ("src_x", .int 1),
  ("src_y", .int 1), ("dst_x", .int 1), ("dst_y", .int 2), ("injection_rate", .int 20),
  ("phase_cycle_offset", .int offset), ("noc_type", .str "NOC_1")]
def pyFile (offset : Int) : Json := .obj [("golden_result", .obj [("cycles", .int 99)]),
  ("phases", .arr [.obj [("transfers", .arr [pyEntry offset])]])]

theorem pyFile_says (fp : FP) (offset : Int) (h : 0 ≤ offset ∧ offset < 4294967296) :
    SaysAll fp [[pyArgs offset]] (some 99) (pyFile offset) := by
  have ho : (Json.int offset).asInt = some offset := by
    show (if _ then _ else _) = _
    rw [if_pos ⟨by omega, by omega⟩]
  refine ⟨⟨_, rfl⟩, ⟨_, rfl, .cons ⟨_, rfl, .cons ?_ .nil⟩ .nil⟩, ⟨_, rfl, by decide, rfl⟩⟩
  refine ⟨rfl, rfl, rfl, rfl, rfl, ⟨rfl, rfl, rfl, by decide⟩, ?_, ?_, rfl, rfl⟩
  · have := fp.f64.fl_nat (n := 20) (by norm_num)
    exact_mod_cast this
  · show ((Json.int offset).asInt).getD 0 = offset
    rw [ho]
    rfl

/-- The workload of the example: one transfer of three packets on NoC 1. -/
def pyWl : Workload :=
  (({} : Workload).addPhase { transfers :=
    [Transfer.make 2048 3 ⟨0, 1, 1⟩ (.unicast ⟨0, 2, 1⟩) 20 5 .noc1] }).setGoldenResultCycles [(0, 0, 99)]

example : Bind.workload .ieee [[pyArgs 5]] (some [(0, 0, 99)]) = .ok pyWl ∧
    loadJSONWorkload .ieee true "w.json" (.doc (pyFile 5)) =
      .ok (some { pyWl with sourcePath := some "w.json" }) := by decide +kernel

/-- C140 is violated for late offsets: the offset is a 32-bit unsigned number, but Python refuses offsets of 2^31 and
more (the argument is an `int`), which a file may have. -/
theorem C140_violated (fp : FP) : SaysAll fp [[pyArgs 2147483648]] (some 99) (pyFile 2147483648) ∧
    Bind.workload fp [[pyArgs 2147483648]] (some [(0, 0, 99)]) = .std .pyType ∧
    ∃ w, loadJSONWorkload fp true "w.json" (.doc (pyFile 2147483648)) = .ok (some w) ∧
      w.transfers.map (fun t => t.offset) = [2147483648] := by
  refine ⟨pyFile_says fp _ (by decide), rfl, _, rfl, rfl⟩

/-- C140, further findings: a negative offset is accepted and becomes a very late one, and coordinates that do not fit
into 16 bits are accepted and become others. -/
theorem C140_wraps (fp : FP) :
    (∃ x, Bind.transfer fp (pyArgs (-1)) = .ok x ∧ x.offset = 4294967295) ∧
    ∃ x, Bind.transfer fp { pyArgs 0 with src := (0, 65537, 1) } = .ok x ∧ x.src = ⟨0, 1, 1⟩ :=
  ⟨⟨_, rfl, rfl⟩, ⟨_, rfl, rfl⟩⟩

end NPE.Props
