import Verif.Proofs.Edges
import Verif.Proofs.Timing
import Verif.Proofs.Route

/-
Delays of grouped transfers.
-/

namespace NPE
open NPE.Spec

/-- The write latency of Wormhole: 40 cycles plus 10 per hop. -/
theorem writeLatency_eq (noc : Noc) (s e : Coord) :
    writeLatency .wormholeB0 s.col s.row e.col e.row (some noc) = 40 + 10 * hops 12 10 noc s e := by
  cases noc <;> simp only [writeLatency, archHops, archDims, hops] <;>
    rw [modulo_eq _ _ (by decide), modulo_eq _ _ (by decide)] <;> ring

theorem hops_bounds (noc : Noc) (s e : Coord) : 0 ≤ hops 12 10 noc s e ∧ hops 12 10 noc s e ≤ 20 := by
  cases noc <;> simp only [hops] <;> omega

/-- What the delay of a grouped transfer is. -/
theorem groupDelay_ok {fp : FP} {dev : Device} {t : Transfer} {pd : Int} {d : Nat}
    (h : groupDelay fp dev t pd = .ok d) :
    ∃ e : Coord, t.dst = .unicast e ∧ dev.arch = .wormholeB0 ∧
      (t.src.dev = pd → (d : Int) = 40 + 10 * hops 12 10 t.noc t.src e) ∧
      (t.src.dev ≠ pd →
        (640 + 10 * hops 12 10 t.noc t.src e + 1055 / 10000 * t.packetSize : ℚ) * (1 - 1 / 2097152) - 1 ≤ d ∧
        (d : ℚ) ≤ (640 + 10 * hops 12 10 t.noc t.src e + 1055 / 10000 * t.packetSize) * (1 + 1 / 2097152)) := by
  unfold groupDelay at h
  cases hdst : t.dst with
  | mcast m => simp [hdst] at h
  | unicast e =>
    cases harch : dev.arch with
    | blackhole => simp [hdst, harch] at h
    | wormholeB0 =>
      simp only [hdst, harch, Out.bind_ok] at h
      rw [writeLatency_eq] at h
      obtain ⟨b1, b2⟩ := hops_bounds t.noc t.src e
      have hl : ((toU32 (40 + 10 * hops 12 10 t.noc t.src e) : Nat) : Int) =
          40 + 10 * hops 12 10 t.noc t.src e := by
        unfold toU32; omega
      refine ⟨e, rfl, rfl, ?_, ?_⟩
      · intro hs
        rw [if_neg (by simpa using hs)] at h
        rw [← Out.ok.inj h]; exact hl
      · intro hs
        rw [if_pos hs] at h
        unfold addEthDelay ethDelayPerByte at h
        simp only at h
        set lat := toU32 (40 + 10 * hops 12 10 t.noc t.src e) with hlat
        have hlq : (lat : ℚ) = 40 + 10 * (hops 12 10 t.noc t.src e : ℚ) := by
          have := congrArg (fun x : Int => (x : ℚ)) hl
          push_cast at this
          exact this
        have hlat_le : lat ≤ 16777216 := by omega
        rw [fp.f32.fl_nat hlat_le] at h
        have hp0 : (0 : ℚ) ≤ t.packetSize := by positivity
        have a1 := fp.f32.fl_le_err hp0
        have a2 := fp.f32.fl_ge_err hp0
        have c1 := fp.f32.fl_le_err (x := 1055 / 10000) (by norm_num)
        have c2 := fp.f32.fl_ge_err (x := 1055 / 10000) (by norm_num)
        set P := fp.f32.fl (t.packetSize : ℚ) with hP
        set K := fp.f32.fl (1055 / 10000) with hK
        have hPn : 0 ≤ P := fp.f32.fl_nonneg hp0
        have hKn : 0 ≤ K := fp.f32.fl_nonneg (by norm_num)
        have d1 := fp.f32.fl_le_err (mul_nonneg hKn hPn)
        have d2 := fp.f32.fl_ge_err (mul_nonneg hKn hPn)
        set M := fp.f32.fl (K * P) with hM
        have hMn : 0 ≤ M := fp.f32.fl_nonneg (mul_nonneg hKn hPn)
        have e1 := fp.f32.fl_le_err (x := 600 + M) (by linarith)
        have e2 := fp.f32.fl_ge_err (x := 600 + M) (by linarith)
        set H := fp.f32.fl (600 + M) with hH
        have hHn : 0 ≤ H := fp.f32.fl_nonneg (by linarith)
        have hln : (0 : ℚ) ≤ lat := by positivity
        have f1 := fp.f32.fl_le_err (x := lat + H) (by linarith)
        have f2 := fp.f32.fl_ge_err (x := lat + H) (by linarith)
        set X := fp.f32.fl ((lat : ℚ) + H) with hX
        have hXn : 0 ≤ X := fp.f32.fl_nonneg (by linarith)
        split at h
        · have hd := Out.ok.inj h
          have hf1 : ((X.floor.toNat : Nat) : ℚ) ≤ X := toNat_floor_le hXn
          have hf2 : X - 1 ≤ ((X.floor.toNat : Nat) : ℚ) := by
            have h1 := Int.lt_floor_add_one X
            have h0 : 0 ≤ X.floor := Rat.le_floor_iff.mpr (by simpa using hXn)
            have h2 : ((X.floor.toNat : Nat) : ℚ) = (X.floor : ℚ) := by
              have : ((X.floor.toNat : Nat) : Int) = X.floor := Int.toNat_of_nonneg h0
              exact_mod_cast congrArg (fun x : Int => (x : ℚ)) this
            rw [h2]
            have h3 : (⌊X⌋ : ℚ) = (X.floor : ℚ) := rfl
            rw [← h3]; linarith
          rw [← hd]
          have g1 : K * P ≤ 1055 / 10000 * (1 + 1 / 16777216) * (t.packetSize * (1 + 1 / 16777216)) :=
            mul_le_mul c1 a1 hPn (by norm_num)
          have g2 : 1055 / 10000 * (1 - 1 / 16777216) * (t.packetSize * (1 - 1 / 16777216)) ≤ K * P :=
            mul_le_mul c2 a2 (mul_nonneg hp0 (by norm_num)) hKn
          constructor
          · rw [show (640 + 10 * (hops 12 10 t.noc t.src e : ℚ) + 1055 / 10000 * (t.packetSize : ℚ)) =
              (lat : ℚ) + 600 + 1055 / 10000 * t.packetSize from by rw [hlq]; ring]
            nlinarith
          · rw [show (640 + 10 * (hops 12 10 t.noc t.src e : ℚ) + 1055 / 10000 * (t.packetSize : ℚ)) =
              (lat : ℚ) + 600 + 1055 / 10000 * t.packetSize from by rw [hlq]; ring]
            nlinarith
        · simp at h

/-- Delays are small. -/
theorem groupDelay_le {fp : FP} {dev : Device} {t : Transfer} {pd : Int} {d : Nat}
    (h : groupDelay fp dev t pd = .ok d) (hp : t.packetSize < 4294967296) : d ≤ 1000000000 := by
  obtain ⟨e, _, _, h1, h2⟩ := groupDelay_ok h
  obtain ⟨b1, b2⟩ := hops_bounds t.noc t.src e
  by_cases hs : t.src.dev = pd
  · have := h1 hs; omega
  · have h3 := (h2 hs).2
    have h4 : (hops 12 10 t.noc t.src e : ℚ) ≤ 20 := by exact_mod_cast b2
    have h5 : (t.packetSize : ℚ) ≤ 4294967296 := by exact_mod_cast hp.le
    have : (d : ℚ) ≤ 1000000000 := by nlinarith
    exact_mod_cast this

end NPE
