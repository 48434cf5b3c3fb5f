import Verif.Proofs.HashScan
import Verif.Props.Crowd

/-
C100-C103: the hash functions of the keys of hash containers (include/npeUtil.hpp:376-481,
include/npeDeviceTypes.hpp:56-86).
-/

namespace NPE.Props

open Hash

/-! ## C100: equal keys have equal hashes -/

/-- The contract of every hash container: keys that compare equal have equal hashes. -/
def C100_claim : Prop :=
  (∀ a b : Coord, eqCoord a b = true → Hash.coord a = Hash.coord b) ∧
  (∀ a b : CoordGrid, eqGrid a b = true → Hash.grid a = Hash.grid b) ∧
  (∀ as bs : List CoordGrid, eqMcast as bs = true → Hash.mcast as = Hash.mcast bs) ∧
  (∀ a b : LinkAttr, eqLink a b = true → Hash.link a = Hash.link b) ∧
  (∀ a b : NIUAttr, eqNiu a b = true → Hash.niu a = Hash.niu b) ∧
  ∀ hd hs, ∀ a b : Zone, eqZone a b = true → Hash.zone hd hs a = Hash.zone hd hs b

/-- The same rectangle of cores on two chips: the sets compare equal, although they share no core, and their
hashes differ, so a table with two or more buckets can fail to find a key that an association list finds. -/
theorem C100_violated : ¬ C100_claim ∧
    ∃ as bs : List CoordGrid, eqMcast as bs = true ∧ (∀ g ∈ as, g.lo.dev = 0 ∧ g.hi.dev = 0) ∧
      (∀ g ∈ bs, g.lo.dev = 1 ∧ g.hi.dev = 1) ∧ Hash.mcast as ≠ Hash.mcast bs ∧
      Spec.assoc eqMcast [(as, 7)] bs = some 7 ∧
      Spec.bucketed (fun k => (Hash.mcast k).toNat) 16 eqMcast [(as, 7)] bs = none := by
  refine ⟨fun h => ?_, [⟨⟨0, 1, 1⟩, ⟨0, 2, 2⟩⟩], [⟨⟨1, 1, 1⟩, ⟨1, 2, 2⟩⟩], ?_⟩
  · have := h.2.1 ⟨⟨0, 1, 1⟩, ⟨0, 2, 2⟩⟩ ⟨⟨1, 1, 1⟩, ⟨1, 2, 2⟩⟩ (by decide)
    exact absurd this (by decide)
  · decide

theorem assoc_eq_lookup {α β : Type} [DecidableEq α] (eq : α → α → Bool) (heq : ∀ a b, eq a b = true ↔ a = b)
    (es : List (α × β)) (k : α) : Spec.assoc eq es k = es.lookup k := by
  unfold Spec.assoc
  induction es with
  | nil => rfl
  | cons e es ih =>
    obtain ⟨a, v⟩ := e
    rw [List.find?_cons, List.lookup_cons]
    by_cases h : a = k
    · subst h
      rw [(heq a a).mpr rfl, beq_self_eq_true]
      rfl
    · rw [show eq a k = false from by rw [Bool.eq_false_iff]; exact fun e => h ((heq a k).mp e),
        show (k == a) = false from by rw [beq_eq_false_iff_ne]; exact fun e => h e.symm]
      exact ih

theorem bucketed_eq {α β : Type} (hash : α → Nat) (n : Nat) (eq : α → α → Bool)
    (hh : ∀ a b, eq a b = true → hash a = hash b) (es : List (α × β)) (k : α) :
    Spec.bucketed hash n eq es k = Spec.assoc eq es k := by
  unfold Spec.bucketed Spec.assoc
  rw [List.find?_filter]
  congr 2
  funext e
  cases h : eq e.1 k with
  | false => simp
  | true =>
    rw [hh _ _ h]
    simp

/-- Coordinates, links, interfaces and zones obey the contract, and they compare equal only if they are the same;
rectangles and sets obey it when they name the same chips.  Hence the tables of links and interfaces that the
devices search answer as the association lists of the model do, for every number of buckets. -/
theorem C100_partial :
    (∀ a b : Coord, eqCoord a b = true ↔ a = b) ∧
    (∀ a b : LinkAttr, eqLink a b = true ↔ a = b) ∧
    (∀ a b : NIUAttr, eqNiu a b = true ↔ a = b) ∧
    (∀ a b : Zone, eqZone a b = true ↔ a = b) ∧
    (∀ a b : CoordGrid, eqGrid a b = true → a.lo.dev = b.lo.dev → a.hi.dev = b.hi.dev → Hash.grid a = Hash.grid b) ∧
    (∀ as bs : List CoordGrid, eqMcast as bs = true →
      as.map (fun g => (g.lo.dev, g.hi.dev)) = bs.map (fun g => (g.lo.dev, g.hi.dev)) → as = bs) ∧
    (∀ (dev : Device) (n : Nat) (a : LinkAttr),
      dev.getLinkID a = match Spec.bucketed (fun k => (Hash.link k).toNat) n eqLink (Device.idMap dev.linkTable) a with
        | some i => .ok i
        | none => .exc .undef) ∧
    ∀ (dev : Device) (n : Nat) (a : NIUAttr),
      dev.getNIUID a = match Spec.bucketed (fun k => (Hash.niu k).toNat) n eqNiu (Device.idMap dev.niuTable) a with
        | some i => .ok i
        | none => .exc .undef := by
  have same : ∀ a b : CoordGrid, eqGrid a b = true → a.lo.dev = b.lo.dev → a.hi.dev = b.hi.dev → a = b := by
    intro a b h h1 h2
    obtain ⟨⟨_, _, _⟩, ⟨_, _, _⟩⟩ := a
    obtain ⟨⟨_, _, _⟩, ⟨_, _, _⟩⟩ := b
    have := eqGrid_iff.mp h
    simp only at this h1 h2
    obtain ⟨rfl, rfl, rfl, rfl⟩ := this
    subst h1 h2
    rfl
  refine ⟨fun _ _ => eqCoord_iff, fun _ _ => eqLink_iff, fun _ _ => eqNiu_iff, fun _ _ => eqZone_iff,
    fun a b h h1 h2 => by rw [same a b h h1 h2], ?_, ?_, ?_⟩
  · intro as bs h
    have h := eqMcast_iff.mp h
    induction h with
    | nil => exact fun _ => rfl
    | cons hab _ ih =>
      intro hm
      rw [List.map_cons, List.map_cons, List.cons.injEq, Prod.mk.injEq] at hm
      rw [ih (eqMcast_iff.mpr (by assumption)) hm.2, same _ _ hab hm.1.1 hm.1.2]
  · intro dev n a
    rw [bucketed_eq _ _ _ (fun a b h => by rw [eqLink_iff.mp h]), assoc_eq_lookup _ (fun _ _ => eqLink_iff)]
    rfl
  · intro dev n a
    rw [bucketed_eq _ _ _ (fun a b h => by rw [eqNiu_iff.mp h]), assoc_eq_lookup _ (fun _ _ => eqNiu_iff)]
    rfl

-- two tables of different size answer alike about the last link of an n150
example : Spec.bucketed (fun k => (Hash.link k).toNat) 64 eqLink
      [(⟨⟨0, 11, 9⟩, .noc1West⟩, (479 : Int)), (⟨⟨0, 11, 9⟩, .noc1North⟩, 478)] ⟨⟨0, 11, 9⟩, .noc1North⟩ = some 478 ∧
    Spec.bucketed (fun k => (Hash.link k).toNat) 3 eqLink
      [(⟨⟨0, 11, 9⟩, .noc1West⟩, (479 : Int)), (⟨⟨0, 11, 9⟩, .noc1North⟩, 478)] ⟨⟨0, 11, 9⟩, .noc1North⟩ = some 478 := by
  decide

/-! ## C101: mixing loses nothing -/

/-- Two sequences that differ in one element have different hashes, wherever the element is; two different seeds
give different hashes of the same sequence; and every result of one mixing step comes from exactly one value. -/
theorem C101 :
    (∀ (s : Word) (pre post : List Word) (a b : Word),
      container s (pre ++ a :: post) = container s (pre ++ b :: post) ↔ a = b) ∧
    (∀ (s t : Word) (hs : List Word), container s hs = container t hs ↔ s = t) ∧
    (∀ s w : Word, ∃ h, combine s h = w ∧ ∀ g, combine s g = w → g = h) ∧
    ∀ h w : Word, ∃ s, combine s h = w := by
  refine ⟨fun s pre post a b => ?_, fun s t hs => container_seed hs, fun s w => ?_, fun h w => ?_⟩
  · rw [container_append, container_append]
    exact (container_seed post).trans combine_value
  · have e : combine s (undistribute (rotl s (64 / 3) ^^^ w)) = w := by
      unfold combine
      rw [distribute_undistribute, ← BitVec.xor_assoc, BitVec.xor_self, BitVec.zero_xor]
    exact ⟨_, e, fun g hg => combine_value.mp (hg.trans e.symm)⟩
  · refine ⟨(w ^^^ distribute h).rotateRight (64 / 3), ?_⟩
    unfold combine
    have r : rotl ((w ^^^ distribute h).rotateRight (64 / 3)) (64 / 3) = w ^^^ distribute h := by
      apply BitVec.eq_of_getLsbD_eq
      intro i hi
      rw [rotl_bit _ _ hi, BitVec.getLsbD_rotateRight]
      have hm : (64 / 3 % 64 : Nat) = 21 := rfl
      rw [hm]
      by_cases h : i < 21
      · rw [show decide ((i + 43) % 64 < 64 - 21) = false from by simp; omega,
          show (i + 43) % 64 - (64 - 21) = i by omega]
        simp; omega
      · rw [show decide ((i + 43) % 64 < 64 - 21) = true from by simp; omega,
          show 21 + (i + 43) % 64 = i by omega]
        rfl
    rw [r, BitVec.xor_assoc, BitVec.xor_self, BitVec.xor_zero]

/-- Coordinates of 16-bit numbers that differ in one component have different hashes; so have links and interfaces
of one place and different kind. -/
theorem C101_keys {c e : Coord} (hc : (-32768 ≤ c.dev ∧ c.dev < 32768) ∧ (-32768 ≤ c.row ∧ c.row < 32768) ∧
      -32768 ≤ c.col ∧ c.col < 32768)
    (he : (-32768 ≤ e.dev ∧ e.dev < 32768) ∧ (-32768 ≤ e.row ∧ e.row < 32768) ∧
      -32768 ≤ e.col ∧ e.col < 32768)
    (one : (c.row = e.row ∧ c.col = e.col) ∨ (c.dev = e.dev ∧ c.col = e.col) ∨ (c.dev = e.dev ∧ c.row = e.row)) :
    (Hash.coord c = Hash.coord e ↔ c = e) ∧
    (∀ t : LinkType, Hash.link ⟨c, t⟩ = Hash.link ⟨e, t⟩ ↔ c = e) ∧
    (∀ t u : LinkType, Hash.link ⟨c, t⟩ = Hash.link ⟨c, u⟩ ↔ t = u) ∧
    ∀ t u : NIUType, Hash.niu ⟨c, t⟩ = Hash.niu ⟨c, u⟩ ↔ t = u := by
  have key : Hash.coord c = Hash.coord e ↔ c = e := by
    refine ⟨fun h => ?_, fun h => by rw [h]⟩
    obtain ⟨cd, cr, cc⟩ := c
    obtain ⟨ed, er, ec⟩ := e
    simp only at hc he one
    unfold Hash.coord at h
    simp only at h
    rcases one with ⟨rfl, rfl⟩ | ⟨rfl, rfl⟩ | ⟨rfl, rfl⟩
    · have := (ofInt_inj (by omega) (by omega)).mp (combine_value.mp (combine_seed.mp (combine_seed.mp h)))
      rw [this]
    · have := (ofInt_inj (by omega) (by omega)).mp (combine_value.mp (combine_seed.mp h))
      rw [this]
    · have := (ofInt_inj (by omega) (by omega)).mp (combine_value.mp h)
      rw [this]
  refine ⟨key, fun t => ?_, fun t u => ?_, fun t u => ?_⟩
  · exact combine_seed.trans (combine_value.trans key)
  · exact combine_value.trans ⟨fun h => link_type_inj h, fun h => by rw [h]⟩
  · exact combine_value.trans ⟨fun h => niu_type_inj h, fun h => by rw [h]⟩

/-- Rectangles that differ in one corner have different hashes if the hashes of the corners differ; sets that differ
in one rectangle have different hashes if the hashes of the rectangles differ; zones that differ in the time, the
name or the phase have different hashes if the hashes of the times or names differ. -/
theorem C101_composite :
    (∀ c e g : Coord, (Hash.grid ⟨c, g⟩ = Hash.grid ⟨e, g⟩ ↔ Hash.coord c = Hash.coord e) ∧
      (Hash.grid ⟨g, c⟩ = Hash.grid ⟨g, e⟩ ↔ Hash.coord c = Hash.coord e)) ∧
    (∀ (pre post : List CoordGrid) (a b : CoordGrid),
      Hash.mcast (pre ++ a :: post) = Hash.mcast (pre ++ b :: post) ↔ Hash.grid a = Hash.grid b) ∧
    ∀ (hd : Int → Word) (hs : String → Word) (t u : Int) (z y : String) (p q : ZonePhase),
      (Hash.zone hd hs ⟨t, z, p⟩ = Hash.zone hd hs ⟨u, z, p⟩ ↔ hd t = hd u) ∧
      (Hash.zone hd hs ⟨t, z, p⟩ = Hash.zone hd hs ⟨t, y, p⟩ ↔ hs z = hs y) ∧
      (Hash.zone hd hs ⟨t, z, p⟩ = Hash.zone hd hs ⟨t, z, q⟩ ↔ p = q) := by
  refine ⟨fun c e g => ⟨combine_seed.trans combine_value, combine_value⟩, fun pre post a b => ?_,
    fun hd hs t u z y p q => ⟨combine_seed.trans (combine_seed.trans combine_value), combine_seed.trans combine_value,
      combine_value.trans ⟨fun h => ?_, fun h => by rw [h]⟩⟩⟩
  · unfold Hash.mcast
    rw [List.map_append, List.map_append, List.map_cons, List.map_cons, container_append, container_append]
    exact (container_seed (post.map Hash.grid)).trans combine_value
  · have h : ofInt (zonePhase p) = ofInt (zonePhase q) := h
    cases p <;> cases q <;> first | rfl | exact absurd h (by decide)

example : Hash.grid ⟨⟨0, 1, 1⟩, ⟨0, 2, 2⟩⟩ ≠ Hash.grid ⟨⟨0, 1, 1⟩, ⟨0, 2, 3⟩⟩ ∧
    Hash.mcast [⟨⟨0, 1, 1⟩, ⟨0, 2, 2⟩⟩, ⟨⟨1, 1, 1⟩, ⟨1, 2, 2⟩⟩] ≠ Hash.mcast [⟨⟨0, 1, 1⟩, ⟨0, 2, 2⟩⟩, ⟨⟨1, 1, 1⟩, ⟨1, 4, 2⟩⟩] ∧
    Hash.zone (fun _ => 0) (fun _ => 1) ⟨5, "a", .zoneStart⟩ ≠ Hash.zone (fun _ => 0) (fun _ => 1) ⟨5, "a", .zoneEnd⟩ := by
  decide

example : container 5 [1, 2, 3] ≠ container 5 [1, 9, 3] ∧ container 5 [1, 2, 3] ≠ container 6 [1, 2, 3] ∧
    Hash.coord ⟨0, 1, 2⟩ ≠ Hash.coord ⟨1, 1, 2⟩ ∧ Hash.coord ⟨0, 1, 2⟩ ≠ Hash.coord ⟨0, 1, -2⟩ := by decide

/-! ## C102: the hash of a sequence depends on its order -/

/-- Exchanging two different neighbours changes the hash. -/
def C102_claim : Prop := ∀ s a b : Word, a ≠ b → container s [a, b] ≠ container s [b, a]

/-- It does not: the rotation by 21 leaves the word of all ones alone, so every value has exactly one other value
with which it can be exchanged unnoticed, whatever the seed. -/
theorem C102_violated : ¬ C102_claim ∧
    (∀ a : Word, ∃ b, b ≠ a ∧ (∀ s, container s [a, b] = container s [b, a]) ∧
      ∀ s c, c ≠ a → container s [a, c] = container s [c, a] → c = b) ∧
    container 0 [42, 15442612700138836965] = container 0 [15442612700138836965, 42] := by
  have all : ∀ a : Word, ∃ b, b ≠ a ∧ (∀ s, container s [a, b] = container s [b, a]) ∧
      ∀ s c, c ≠ a → container s [a, c] = container s [c, a] → c = b := by
    intro a
    refine ⟨undistribute (~~~ distribute a), ?_, fun s => ?_, fun s c hc h => ?_⟩
    · intro h
      have h1 := distribute_undistribute (~~~ distribute a)
      rw [h] at h1
      have := congrArg (· ^^^ distribute a) h1
      simp only [BitVec.xor_self] at this
      rw [← BitVec.xor_allOnes, BitVec.xor_comm (distribute a) (BitVec.allOnes 64), BitVec.xor_assoc,
        BitVec.xor_self, BitVec.xor_zero] at this
      have e0 : ¬ (0#64 = BitVec.allOnes 64) := by decide
      exact e0 this
    · exact (swap_iff s a _).mpr (Or.inr (distribute_undistribute _))
    · rcases (swap_iff s a c).mp h with h | h
      · exact absurd h.symm hc
      · rw [← h, undistribute_distribute]
  refine ⟨fun h => ?_, all, by decide +kernel⟩
  obtain ⟨b, hb, hs, _⟩ := all 0
  exact h 0 0 b hb.symm (hs 0)

/-- In every other case the order counts, anywhere in a sequence. -/
theorem C102_partial (s : Word) (pre post : List Word) (a b : Word) (hab : a ≠ b)
    (hb : distribute b ≠ ~~~ distribute a) :
    container s (pre ++ a :: b :: post) ≠ container s (pre ++ b :: a :: post) := by
  have cons : ∀ (t x : Word) (xs : List Word), container t (x :: xs) = container (combine t x) xs :=
    fun _ _ _ => rfl
  rw [container_append, container_append, cons, cons, cons, cons]
  intro h
  rcases (swap_iff (container s pre) a b).mp ((container_seed post).mp h) with h | h
  · exact hab h
  · exact hb h

-- rows and columns may be exchanged in a coordinate, and the hash tells
example : Hash.coord ⟨0, 3, 7⟩ ≠ Hash.coord ⟨0, 7, 3⟩ := by decide

/-! ## C103: no collisions among the keys of a device -/

theorem linkTable_coord {dev : Device} (hd : dev.chips ≤ 36) (hr : dev.rows ≤ 12) (hc : dev.cols ≤ 17)
    {a : LinkAttr} (h : a ∈ dev.linkTable) : a.coord ∈ allCoords := by
  unfold Device.linkTable at h
  simp only [List.mem_flatMap, List.mem_map, List.mem_range] at h
  obtain ⟨d, h1, r, h2, k, h3, t, _, rfl⟩ := h
  rw [mem_allCoords]
  refine ⟨⟨?_, ?_⟩, ⟨?_, ?_⟩, ?_, ?_⟩ <;> simp only <;> omega

theorem niuTable_coord {dev : Device} (hd : dev.chips ≤ 36) (hr : dev.rows ≤ 12) (hc : dev.cols ≤ 17)
    {a : NIUAttr} (h : a ∈ dev.niuTable) : a.coord ∈ allCoords := by
  unfold Device.niuTable at h
  simp only [List.mem_flatMap, List.mem_map, List.mem_range] at h
  obtain ⟨d, h1, r, h2, k, h3, t, _, rfl⟩ := h
  rw [mem_allCoords]
  refine ⟨⟨?_, ?_⟩, ⟨?_, ?_⟩, ?_, ?_⟩ <;> simp only <;> omega

theorem factory_dims {fp : FP} {name : String} {dev : Device} (h : createDeviceModel fp name = .ok dev) :
    dev.chips ≤ 36 ∧ dev.rows ≤ 12 ∧ dev.cols ≤ 17 := by
  unfold createDeviceModel at h
  split_ifs at h <;> rw [← Out.ok.inj h] <;> exact ⟨Nat.le_of_ble_eq_true rfl, Nat.le_of_ble_eq_true rfl, Nat.le_of_ble_eq_true rfl⟩

/-- On every device of the factory, two links have the same hash only if they are the same link; so for
interfaces; and so for coordinates within the bounds of the device. -/
theorem C103 {fp : FP} {name : String} {dev : Device} (h : createDeviceModel fp name = .ok dev) :
    (∀ a ∈ dev.linkTable, ∀ b ∈ dev.linkTable, Hash.link a = Hash.link b → a = b) ∧
    (∀ a ∈ dev.niuTable, ∀ b ∈ dev.niuTable, Hash.niu a = Hash.niu b → a = b) ∧
    ∀ c e : Coord, 0 ≤ c.dev ∧ c.dev < dev.chips → 0 ≤ c.row ∧ c.row < dev.rows → 0 ≤ c.col ∧ c.col < dev.cols →
      0 ≤ e.dev ∧ e.dev < dev.chips → 0 ≤ e.row ∧ e.row < dev.rows → 0 ≤ e.col ∧ e.col < dev.cols →
      Hash.coord c = Hash.coord e → c = e := by
  obtain ⟨h1, h2, h3⟩ := factory_dims h
  refine ⟨fun a ha b hb e => ?_, fun a ha b hb e => ?_, fun c e c1 c2 c3 e1 e2 e3 he => ?_⟩
  · have hcoord := lowKey_inj (linkTable_coord h1 h2 h3 ha) (linkTable_coord h1 h2 h3 hb)
      (by rw [← link_lowKey, ← link_lowKey, e])
    obtain ⟨ca, ta⟩ := a
    obtain ⟨cb, tb⟩ := b
    simp only at hcoord
    subst hcoord
    have ht : ta = tb := link_type_inj (combine_value.mp e)
    rw [ht]
  · have hcoord := lowKey_inj (niuTable_coord h1 h2 h3 ha) (niuTable_coord h1 h2 h3 hb)
      (by rw [← niu_lowKey, ← niu_lowKey, e])
    obtain ⟨ca, ta⟩ := a
    obtain ⟨cb, tb⟩ := b
    simp only at hcoord
    subst hcoord
    have ht : ta = tb := niu_type_inj (combine_value.mp e)
    rw [ht]
  · refine lowKey_inj (mem_allCoords.mpr ?_) (mem_allCoords.mpr ?_) (by unfold lowKey; rw [he]) <;> omega

/-- The four links of a place are told apart by the high half of their hashes only. -/
theorem C103_low_bits (c : Coord) (t u : LinkType) :
    (Hash.link ⟨c, t⟩).toNat % 2 ^ 32 = (Hash.link ⟨c, u⟩).toNat % 2 ^ 32 := by
  have e : ∀ n : Nat, n &&& 4294967295 = n % 2 ^ 32 := fun n => Nat.and_two_pow_sub_one_eq_mod n 32
  rw [← e, ← e, link_lowKey, link_lowKey]

-- two links of a Galaxy
example : Hash.link ⟨⟨31, 11, 9⟩, .noc0East⟩ ≠ Hash.link ⟨⟨31, 11, 9⟩, .noc0South⟩ ∧
    Hash.link ⟨⟨31, 11, 9⟩, .noc0East⟩ ≠ Hash.link ⟨⟨30, 11, 9⟩, .noc0East⟩ := by decide

end NPE.Props
