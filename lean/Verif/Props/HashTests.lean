import Verif.Proofs.HashTests
import Verif.Props.Hash
import Mathlib.Order.Interval.Finset.Nat

/-
C109: the tests of hash quality, test/test_npe_util.cpp:347-418 and 545-713.
-/

namespace NPE

namespace Spec

/-- Number of keys in a bucket. -/
def inBucket {α : Type} (hash : α → Hash.Word) (buckets : Nat) (xs : List α) (b : Nat) : Nat :=
  (xs.filter fun x => (hash x).toNat % buckets = b).length

/-- The square of `normalized_std_dev`, test/test_npe_util.cpp:391-399: the mean square of the difference to the
expected size, relative to the square of the expected size. -/
def spread {α : Type} (hash : α → Hash.Word) (buckets samples : Nat) (xs : List α) : ℚ :=
  let size : ℚ := samples / buckets
  ((List.range buckets).map fun b => ((inBucket hash buckets xs b : ℚ) - size) ^ 2).sum / buckets / size ^ 2

/-- `normalized_std_dev < 0.3` with 107 buckets, test/test_npe_util.cpp:410. -/
def SpreadEvenly {α : Type} (hash : α → Hash.Word) (samples : Nat) (xs : List α) : Prop :=
  spread hash 107 samples xs < (3 / 10) ^ 2

/-- `collision_rate`, test/test_npe_util.cpp:687. -/
def collisionRate {α : Type} (hash : α → Hash.Word) (xs : List α) : ℚ :=
  1 - ((xs.map hash).dedup.length : ℚ) / xs.length

/-- Coordinates of the second test, test/test_npe_util.cpp:556-558 and 588-590. -/
def Drawable (c : Coord) : Prop := (0 ≤ c.dev ∧ c.dev ≤ 10) ∧ (0 ≤ c.row ∧ c.row ≤ 20) ∧ 0 ≤ c.col ∧ c.col ≤ 20

instance (c : Coord) : Decidable (Drawable c) := inferInstanceAs (Decidable (_ ∧ _ ∧ _ ∧ _))

end Spec

namespace Props

open Spec

/-- All checks of the tests succeed: the coordinates are spread evenly, and for every draw of 10000 different links
and of 10000 different interfaces these are spread evenly and have almost no collisions. -/
def C109_claim : Prop :=
  (∀ cs : List Coord, cs.Nodup →
    (∀ c : Coord, c ∈ cs ↔ (0 ≤ c.dev ∧ c.dev ≤ 10) ∧ (0 ≤ c.row ∧ c.row ≤ 30) ∧ 0 ≤ c.col ∧ c.col ≤ 30) →
    SpreadEvenly Hash.coord (10 * 30 * 30) cs) ∧
  (∀ as : List LinkAttr, as.Nodup → as.length = 10000 → (∀ a ∈ as, Drawable a.coord) →
    SpreadEvenly Hash.link 10000 as ∧ collisionRate Hash.link as < 1 / 100) ∧
  ∀ as : List NIUAttr, as.Nodup → as.length = 10000 → (∀ a ∈ as, Drawable a.coord) →
    SpreadEvenly Hash.niu 10000 as ∧ collisionRate Hash.niu as < 1 / 100

theorem inBucket_count {α : Type} (hash : α → Hash.Word) (n : Nat) (xs : List α) (b : Nat) :
    inBucket hash n xs b = (xs.map fun x => (hash x).toNat % n).count b := by
  unfold inBucket
  rw [List.count_eq_countP, List.countP_map, List.countP_eq_length_filter]
  rfl

theorem no_collisions {α : Type} {hash : α → Hash.Word} {xs : List α} (h : (xs.map hash).Nodup) (hne : xs ≠ []) :
    collisionRate hash xs = 0 := by
  unfold collisionRate
  rw [h.dedup, List.length_map, div_self, sub_self]
  have := List.length_pos_of_ne_nil hne
  exact_mod_cast this.ne'

theorem drawable_test {c : Coord} (h : Drawable c) : c ∈ Hash.testCoords := by
  obtain ⟨⟨h1, h2⟩, ⟨h3, h4⟩, h5, h6⟩ := h
  rw [Hash.mem_testCoords]
  omega

theorem link_nodup {as : List LinkAttr} (hn : as.Nodup) (h : ∀ a ∈ as, Drawable a.coord) : (as.map Hash.link).Nodup := by
  refine hn.map_on ?_
  intro a ha b hb e
  have hcoord := Hash.testKey_inj (drawable_test (h a ha)) (drawable_test (h b hb))
    (by rw [← Hash.link_lowKey, ← Hash.link_lowKey, e])
  obtain ⟨ca, ta⟩ := a
  obtain ⟨cb, tb⟩ := b
  simp only at hcoord
  subst hcoord
  have ht : ta = tb := Hash.link_type_inj (Hash.combine_value.mp e)
  rw [ht]

theorem niu_nodup {as : List NIUAttr} (hn : as.Nodup) (h : ∀ a ∈ as, Drawable a.coord) : (as.map Hash.niu).Nodup := by
  refine hn.map_on ?_
  intro a ha b hb e
  have hcoord := Hash.testKey_inj (drawable_test (h a ha)) (drawable_test (h b hb))
    (by rw [← Hash.niu_lowKey, ← Hash.niu_lowKey, e])
  obtain ⟨ca, ta⟩ := a
  obtain ⟨cb, tb⟩ := b
  simp only at hcoord
  subst hcoord
  have ht : ta = tb := Hash.niu_type_inj (Hash.combine_value.mp e)
  rw [ht]

/-- The coordinates are spread evenly, and whatever 10000 links and interfaces are drawn, there is no collision at
all.  Missing: how evenly the drawn links are spread, which depends on the draw. -/
theorem C109_partial :
    (∀ cs : List Coord, cs.Nodup →
      (∀ c : Coord, c ∈ cs ↔ (0 ≤ c.dev ∧ c.dev ≤ 10) ∧ (0 ≤ c.row ∧ c.row ≤ 30) ∧ 0 ≤ c.col ∧ c.col ≤ 30) →
      SpreadEvenly Hash.coord (10 * 30 * 30) cs) ∧
    (∀ as : List LinkAttr, as ≠ [] → as.Nodup → (∀ a ∈ as, Drawable a.coord) → collisionRate Hash.link as = 0) ∧
    ∀ as : List NIUAttr, as ≠ [] → as.Nodup → (∀ a ∈ as, Drawable a.coord) → collisionRate Hash.niu as = 0 := by
  refine ⟨fun cs hn hm => ?_, fun as hne hn h => no_collisions (link_nodup hn h) hne,
    fun as hne hn h => no_collisions (niu_nodup hn h) hne⟩
  have hp : cs.Perm Hash.testCoords := by
    refine (List.perm_ext_iff_of_nodup hn Hash.testCoords_nodup).mpr fun c => ?_
    rw [hm, Hash.mem_testCoords]
    omega
  have hb : ∀ b ∈ List.range 107, ((inBucket Hash.coord 107 cs b : ℚ) - (((10 * 30 * 30 : Nat) : ℚ) / (107 : Nat))) ^ 2 =
      (((Hash.testPacked / 65536 ^ b % 65536 : Nat) : ℚ) - (((10 * 30 * 30 : Nat) : ℚ) / (107 : Nat))) ^ 2 := by
    intro b h
    rw [inBucket_count, (hp.map _).count_eq, Hash.testCoords_count b (List.mem_range.mp h)]
  unfold SpreadEvenly spread
  simp only
  rw [List.map_congr_left hb]
  decide +kernel

theorem linkTable_nodup (dev : Device) : dev.linkTable.Nodup := by
  unfold Device.linkTable
  rw [List.nodup_flatMap]
  refine ⟨fun d _ => ?_, List.nodup_range.imp fun {d e} hne => ?_⟩
  · rw [List.nodup_flatMap]
    refine ⟨fun r _ => ?_, List.nodup_range.imp fun {r q} hne => ?_⟩
    · rw [List.nodup_flatMap]
      refine ⟨fun c _ => ?_, List.nodup_range.imp fun {c k} hne => ?_⟩
      · exact List.Nodup.map (fun a b h => (LinkAttr.mk.inj h).2) (by decide)
      · intro a h1 h2
        obtain ⟨_, _, rfl⟩ := List.mem_map.mp h1
        obtain ⟨_, _, e⟩ := List.mem_map.mp h2
        exact hne (Int.ofNat.inj (congrArg (·.coord.col) e)).symm
    · intro a h1 h2
      simp only [List.mem_flatMap, List.mem_map] at h1 h2
      obtain ⟨_, _, _, _, rfl⟩ := h1
      obtain ⟨_, _, _, _, e⟩ := h2
      exact hne (Int.ofNat.inj (congrArg (·.coord.row) e)).symm
  · intro a h1 h2
    simp only [List.mem_flatMap, List.mem_map] at h1 h2
    obtain ⟨_, _, _, _, _, _, rfl⟩ := h1
    obtain ⟨_, _, _, _, _, _, e⟩ := h2
    exact hne (Int.ofNat.inj (congrArg (·.coord.dev) e)).symm

/-- a board whose links are those that a draw can contain -/
def drawBoard : Device := { wormhole .exact true 11 with rows := 21, cols := 21 }

theorem drawBoard_length : drawBoard.linkTable.length = 19404 := by
  rw [Device.linkTable_length]
  rfl

/-- The ten buckets from `10 i` on are not used. -/
def Misses {α : Type} (hash : α → Hash.Word) (i : Nat) (x : α) : Bool :=
  !(Nat.ble (10 * i) ((hash x).toNat % 107) && Nat.blt ((hash x).toNat % 107) (10 * i + 10))

theorem misses_iff {α : Type} {hash : α → Hash.Word} {i : Nat} {x : α} : Misses hash i x = true ↔
    ¬ (10 * i ≤ (hash x).toNat % 107 ∧ (hash x).toNat % 107 < 10 * i + 10) := by
  unfold Misses
  rw [Bool.not_eq_true', ← Bool.not_eq_true, Bool.and_eq_true, Nat.ble_eq, Nat.blt_eq]

/-- Every key misses two of three times ten buckets. -/
theorem misses_two {α : Type} (hash : α → Hash.Word) (xs : List α) :
    2 * xs.length ≤ (xs.filter (Misses hash 0)).length + (xs.filter (Misses hash 1)).length +
      (xs.filter (Misses hash 2)).length := by
  induction xs with
  | nil => simp
  | cons x xs ih =>
    simp only [List.filter_cons, List.length_cons]
    have h : ∀ i, Misses hash i x = false → 10 * i ≤ (hash x).toNat % 107 ∧ (hash x).toNat % 107 < 10 * i + 10 := by
      intro i hm
      by_contra hn
      rw [misses_iff.mpr hn] at hm
      cases hm
    have h0 := h 0
    have h1 := h 1
    have h2 := h 2
    cases e0 : Misses hash 0 x <;> cases e1 : Misses hash 1 x <;> cases e2 : Misses hash 2 x <;>
      simp only [e0, e1, e2, forall_const, if_true, Bool.false_eq_true, if_false, List.length_cons] at h0 h1 h2 ⊢ <;> omega

/-- a sum over an initial segment, as a list and as a set -/
theorem sum_range_list (f : Nat → ℚ) (n : Nat) : ((List.range n).map f).sum = ∑ b ∈ Finset.range n, f b := by
  induction n with
  | zero => rfl
  | succ n ih => rw [List.range_succ, List.map_append, List.sum_append, ih, Finset.sum_range_succ]; simp

theorem empty_buckets {α : Type} {hash : α → Hash.Word} {xs : List α} {samples i : Nat} (hs : 0 < samples) (hi : i < 3)
    (h : ∀ x ∈ xs, Misses hash i x = true) : ¬ SpreadEvenly hash samples xs := by
  have hz : ∀ b, 10 * i ≤ b → b < 10 * i + 10 → inBucket hash 107 xs b = 0 := by
    intro b h1 h2
    unfold inBucket
    rw [List.length_eq_zero_iff, List.filter_eq_nil_iff]
    intro x hx e
    have := misses_iff.mp (h x hx)
    simp only [decide_eq_true_eq] at e
    omega
  have hpos : (0 : ℚ) < samples := by exact_mod_cast hs
  have hsize : (0 : ℚ) < ((samples : ℚ) / (107 : Nat)) ^ 2 := by positivity
  unfold SpreadEvenly spread
  simp only
  rw [not_lt, le_div_iff₀ hsize, le_div_iff₀ (by norm_num), sum_range_list]
  have h1 : ∑ b ∈ Finset.Ico (10 * i) (10 * i + 10), ((inBucket hash 107 xs b : ℚ) - (samples : ℚ) / (107 : Nat)) ^ 2 ≤
      ∑ b ∈ Finset.range 107, ((inBucket hash 107 xs b : ℚ) - (samples : ℚ) / (107 : Nat)) ^ 2 := by
    refine Finset.sum_le_sum_of_subset_of_nonneg ?_ fun b _ _ => by positivity
    intro b hb
    rw [Finset.mem_Ico] at hb
    rw [Finset.mem_range]
    omega
  have h2 : ∑ b ∈ Finset.Ico (10 * i) (10 * i + 10), ((inBucket hash 107 xs b : ℚ) - (samples : ℚ) / (107 : Nat)) ^ 2 =
      10 * ((samples : ℚ) / (107 : Nat)) ^ 2 := by
    rw [Finset.sum_congr rfl (g := fun _ => ((samples : ℚ) / (107 : Nat)) ^ 2) fun b hb => by
      rw [Finset.mem_Ico] at hb
      rw [hz b hb.1 hb.2]
      push_cast
      ring, Finset.sum_const, Nat.card_Ico, Nat.add_sub_cancel_left, nsmul_eq_mul]
    push_cast
    ring
  push_cast at hsize h1 h2 ⊢
  nlinarith

/-- Whatever the hash function, there is a draw of 10000 different links that the check of the spread rejects: nothing
keeps the drawn links from missing ten of the buckets. -/
theorem C109_any_hash (hash : LinkAttr → Hash.Word) : ∃ as : List LinkAttr, as.Nodup ∧ as.length = 10000 ∧
    (∀ a ∈ as, Drawable a.coord) ∧ ¬ SpreadEvenly hash 10000 as := by
  have key : ∃ i < 3, 10000 ≤ (drawBoard.linkTable.filter (Misses hash i)).length := by
    have h := misses_two hash drawBoard.linkTable
    rw [drawBoard_length] at h
    by_contra hn
    have h0 : ¬ _ := fun h => hn ⟨0, by omega, h⟩
    have h1 : ¬ _ := fun h => hn ⟨1, by omega, h⟩
    have h2 : ¬ _ := fun h => hn ⟨2, by omega, h⟩
    omega
  obtain ⟨i, hi, hlen⟩ := key
  refine ⟨(drawBoard.linkTable.filter (Misses hash i)).take 10000, ?_, ?_, ?_, ?_⟩
  · exact ((linkTable_nodup drawBoard).filter _).sublist (List.take_sublist _ _)
  · rw [List.length_take]; omega
  · intro a ha
    have := (List.mem_filter.mp (List.mem_of_mem_take ha)).1
    unfold Device.linkTable at this
    simp only [List.mem_flatMap, List.mem_map, List.mem_range] at this
    obtain ⟨d, h1, r, h2, k, h3, t, _, rfl⟩ := this
    have h1 : d < 11 := h1
    have h2 : r < 21 := h2
    have h3 : k < 21 := h3
    refine ⟨⟨?_, ?_⟩, ⟨?_, ?_⟩, ?_, ?_⟩ <;> simp only <;> omega
  · exact empty_buckets (by omega) hi fun a ha => (List.mem_filter.mp (List.mem_of_mem_take ha)).2

/-- The check of the spread can fail. -/
theorem C109_violated : ¬ C109_claim := by
  rintro ⟨_, h, _⟩
  obtain ⟨as, h1, h2, h3, h4⟩ := C109_any_hash Hash.link
  exact h4 (h as h1 h2 h3).1

-- two links of a draw, and a coordinate of the first test with its bucket
example : Drawable ⟨10, 20, 3⟩ ∧ collisionRate Hash.link [⟨⟨10, 20, 3⟩, .noc0East⟩, ⟨⟨10, 20, 3⟩, .noc1West⟩] = 0 ∧
    inBucket Hash.coord 107 [⟨10, 30, 30⟩, ⟨0, 0, 0⟩] 0 = 1 := by decide +kernel

end Props

end NPE
