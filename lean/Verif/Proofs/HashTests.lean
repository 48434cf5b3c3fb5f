import Verif.Proofs.Hash
import Mathlib.Algebra.BigOperators.Ring.Finset

/-
The tables of the tests of hash quality (test/test_npe_util.cpp:347-418 and 545-713), scanned once.
-/

namespace NPE.Hash

/-- the coordinates of the first test, test/test_npe_util.cpp:371-378 -/
def testCoords : List Coord :=
  (List.range 11).flatMap fun (d : Nat) => (List.range 31).flatMap fun (r : Nat) =>
    (List.range 31).map fun (c : Nat) => ⟨d, r, c⟩

theorem mem_testCoords {c : Coord} : c ∈ testCoords ↔
    (0 ≤ c.dev ∧ c.dev < 11) ∧ (0 ≤ c.row ∧ c.row < 31) ∧ 0 ≤ c.col ∧ c.col < 31 := by
  unfold testCoords
  simp only [List.mem_flatMap, List.mem_range, List.mem_map]
  constructor
  · rintro ⟨d, h1, r, h2, k, h3, rfl⟩
    refine ⟨⟨?_, ?_⟩, ⟨?_, ?_⟩, ?_, ?_⟩ <;> simp only <;> omega
  · rintro ⟨⟨h1, h2⟩, ⟨h3, h4⟩, h5, h6⟩
    refine ⟨c.dev.toNat, by omega, c.row.toNat, by omega, c.col.toNat, by omega, ?_⟩
    obtain ⟨d, r, k⟩ := c
    simp only [Coord.mk.injEq]
    simp only at h1 h3 h5
    omega

theorem testCoords_apart : apart 32 1 (overBoard 11 31 31 keyN) = true := by decide +kernel

theorem testCoords_distinct : (testCoords.map lowKey).Nodup := by
  unfold testCoords
  rw [overBoard_eq (g := keyN) fun d hd r hr c hc => lowKey_eq (by omega) (by omega) (by omega)]
  exact apart_nodup _ _ _ testCoords_apart

theorem testKey_inj {a b : Coord} (ha : a ∈ testCoords) (hb : b ∈ testCoords) (h : lowKey a = lowKey b) : a = b :=
  List.inj_on_of_nodup_map testCoords_distinct ha hb h

theorem testCoords_nodup : testCoords.Nodup := testCoords_distinct.of_map _

/-! ### counting into buckets with one large number -/

/-- one digit of 16 bits for each bucket -/
def pack (bs : List Nat) : Nat := bs.foldl (fun a b => a + 65536 ^ b) 0

theorem pack_eq (bs : List Nat) (n : Nat) (h : ∀ b ∈ bs, b < n) :
    pack bs = ∑ b ∈ Finset.range n, bs.count b * 65536 ^ b := by
  have key : ∀ (bs : List Nat) (a : Nat), (∀ b ∈ bs, b < n) →
      bs.foldl (fun a b => a + 65536 ^ b) a = a + ∑ b ∈ Finset.range n, bs.count b * 65536 ^ b := by
    intro bs
    induction bs with
    | nil => intro a _; simp
    | cons b bs ih =>
      intro a h
      rw [List.foldl_cons, ih _ fun c hc => h c (List.mem_cons_of_mem _ hc)]
      have : ∀ c ∈ Finset.range n, (b :: bs).count c * 65536 ^ c =
          bs.count c * 65536 ^ c + (if b = c then 65536 ^ c else 0) := by
        intro c _
        rw [List.count_cons]
        by_cases e : b = c
        · rw [if_pos e, if_pos (by simpa using e)]; ring
        · rw [if_neg e, if_neg (by simpa using e)]
          rfl
      rw [Finset.sum_congr rfl this, Finset.sum_add_distrib, Finset.sum_ite_eq,
        if_pos (Finset.mem_range.mpr (h b List.mem_cons_self))]
      omega
  rw [pack, key bs 0 h, Nat.zero_add]

theorem digit (B : Nat) (hB : 0 < B) : ∀ (n : Nat) (c : Nat → Nat), (∀ i, c i < B) → ∀ i < n,
    (∑ b ∈ Finset.range n, c b * B ^ b) / B ^ i % B = c i
  | 0, _, _, i, h => absurd h (Nat.not_lt_zero i)
  | n + 1, c, hc, i, h => by
    have e : ∑ b ∈ Finset.range (n + 1), c b * B ^ b = c 0 + B * ∑ b ∈ Finset.range n, c (b + 1) * B ^ b := by
      rw [Finset.sum_range_succ', Finset.mul_sum, Nat.add_comm, pow_zero, Nat.mul_one]
      congr 1
      exact Finset.sum_congr rfl fun b _ => by ring
    rw [e]
    cases i with
    | zero => rw [pow_zero, Nat.div_one, Nat.add_mul_mod_self_left, Nat.mod_eq_of_lt (hc 0)]
    | succ i =>
      rw [pow_succ', ← Nat.div_div_eq_div_mul, Nat.add_mul_div_left _ _ hB, Nat.div_eq_of_lt (hc 0), Nat.zero_add]
      exact digit B hB n (fun b => c (b + 1)) (fun i => hc _) i (by omega)

/-- the buckets of the coordinates -/
def testPacked : Nat :=
  324091365382997483536625236122336469073643125981404032333088133973270611712008250955709867722488670521844526735164560266748593341694110696763529811743792811025492199874708141551479569158147645882612824047895913194783170131016646125964586935036497488119866172458119871804876388377930471088595138111539094079295653434174506620904025222916046829776238484172955317395602145695573060309765961583024596952714110340306120066977629040341777143706460371715067688346644213351700638085442662612490704290006237171281266344041

theorem testCoords_packN : pack (overBoard 11 31 31 fun d r c => coordN d r c % 107) = testPacked := by decide +kernel

theorem testCoords_pack : pack (testCoords.map fun c => (coord c).toNat % 107) = testPacked := by
  rw [← testCoords_packN]
  unfold testCoords
  rw [overBoard_eq (g := fun d r c => coordN d r c % 107) fun d hd r hr c hc => by
    rw [coord_toNat (by omega) (by omega) (by omega)]]

theorem testCoords_length : testCoords.length = 10571 := by
  simp [testCoords, List.length_flatMap]

theorem testCoords_count (b : Nat) (h : b < 107) :
    (testCoords.map fun c => (coord c).toNat % 107).count b = testPacked / 65536 ^ b % 65536 := by
  rw [← testCoords_pack, pack_eq _ 107]
  · refine (digit 65536 (by omega) 107 (fun b => (testCoords.map fun c => (coord c).toNat % 107).count b) (fun i => ?_) b h).symm
    refine lt_of_le_of_lt List.count_le_length ?_
    rw [List.length_map, testCoords_length]
    omega
  · intro b hb
    obtain ⟨c, _, rfl⟩ := List.mem_map.mp hb
    exact Nat.mod_lt _ (by omega)

end NPE.Hash
