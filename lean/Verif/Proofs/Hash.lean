import Verif.Model.Hash
import Verif.Spec.Hash
import Mathlib.Data.List.Nodup

/-
Lemmas on the hash functions.
-/

namespace NPE.Hash

theorem xorshift_xorshift (n : Word) : xorshift (xorshift n 32) 32 = n := by
  unfold xorshift
  apply BitVec.eq_of_getLsbD_eq
  intro i hi
  simp only [BitVec.getLsbD_xor, BitVec.getLsbD_ushiftRight]
  have : n.getLsbD (32 + (32 + i)) = false := BitVec.getLsbD_of_ge _ _ (by omega)
  rw [this]
  cases n.getLsbD i <;> cases n.getLsbD (32 + i) <;> rfl

/-- the inverse of `distribute` -/
def undistribute (m : Word) : Word :=
  xorshift (18446744073709551613#64 * xorshift (5147537568999943159#64 * m) 32) 32

theorem undistribute_distribute (n : Word) : undistribute (distribute n) = n := by
  unfold undistribute distribute
  rw [← BitVec.mul_assoc, show (5147537568999943159#64 * 17316035218449499591#64) = 1#64 from by decide,
    BitVec.one_mul, xorshift_xorshift, ← BitVec.mul_assoc,
    show (18446744073709551613#64 * 0x5555555555555555#64) = 1#64 from by decide, BitVec.one_mul, xorshift_xorshift]

theorem distribute_undistribute (m : Word) : distribute (undistribute m) = m := by
  unfold undistribute distribute
  rw [xorshift_xorshift, ← BitVec.mul_assoc (0x5555555555555555#64),
    show (0x5555555555555555#64 * 18446744073709551613#64) = 1#64 from by decide, BitVec.one_mul, xorshift_xorshift,
    ← BitVec.mul_assoc, show (17316035218449499591#64 * 5147537568999943159#64) = 1#64 from by decide,
    BitVec.one_mul]

theorem distribute_inj {a b : Word} : distribute a = distribute b ↔ a = b :=
  ⟨fun h => by rw [← undistribute_distribute a, h, undistribute_distribute], fun h => by rw [h]⟩

/-- bit `i` of a word rotated by 21 -/
theorem rotl_bit (x : Word) (i : Nat) (hi : i < 64) :
    (rotl x (64 / 3)).getLsbD i = x.getLsbD ((i + 43) % 64) := by
  unfold rotl
  rw [BitVec.getLsbD_rotateLeft]
  by_cases h : i < 21
  · rw [show decide (i < 64 / 3 % 64) = true from by simpa using h, show (i + 43) % 64 = 43 + i by omega]
    rfl
  · rw [show decide (i < 64 / 3 % 64) = false from by simpa using h, show (i + 43) % 64 = i - 21 by omega]
    simp [hi]

theorem rotl_xor (x y : Word) : rotl (x ^^^ y) (64 / 3) = rotl x (64 / 3) ^^^ rotl y (64 / 3) := by
  apply BitVec.eq_of_getLsbD_eq
  intro i hi
  rw [rotl_bit _ _ hi, BitVec.getLsbD_xor, BitVec.getLsbD_xor, rotl_bit _ _ hi, rotl_bit _ _ hi]

theorem rotl_inj {x y : Word} : rotl x (64 / 3) = rotl y (64 / 3) ↔ x = y := by
  refine ⟨fun h => ?_, fun h => by rw [h]⟩
  apply BitVec.eq_of_getLsbD_eq
  intro i hi
  have := congrArg (fun w => w.getLsbD ((i + 21) % 64)) h
  rw [rotl_bit _ _ (Nat.mod_lt _ (by omega)), rotl_bit _ _ (Nat.mod_lt _ (by omega)),
    show ((i + 21) % 64 + 43) % 64 = i by omega] at this
  exact this

/-- a word that rotation by 21 leaves alone has all bits equal -/
theorem rotl_fixed {x : Word} : rotl x (64 / 3) = x ↔ x = 0#64 ∨ x = BitVec.allOnes 64 := by
  constructor
  · intro h
    have key : ∀ k : Nat, x.getLsbD (43 * k % 64) = x.getLsbD 0 := by
      intro k
      induction k with
      | zero => rfl
      | succ k ih =>
        have := congrArg (fun w => w.getLsbD (43 * k % 64)) h
        rw [rotl_bit _ _ (Nat.mod_lt _ (by omega)),
          show (43 * k % 64 + 43) % 64 = 43 * (k + 1) % 64 by omega] at this
        rw [this, ih]
    have all : ∀ i, i < 64 → x.getLsbD i = x.getLsbD 0 := by
      intro i hi
      rw [← key (3 * i), show 43 * (3 * i) % 64 = i by omega]
    cases h0 : x.getLsbD 0 with
    | false =>
      refine Or.inl (BitVec.eq_of_getLsbD_eq fun i hi => ?_)
      rw [all i hi, h0]
      simp
    | true =>
      refine Or.inr (BitVec.eq_of_getLsbD_eq fun i hi => ?_)
      rw [all i hi, h0, BitVec.getLsbD_allOnes, decide_eq_true hi]
  · rintro (h | h) <;> subst h <;> decide

theorem xor_cancel_right {a b c : Word} : a ^^^ c = b ^^^ c ↔ a = b := by
  refine ⟨fun h => ?_, fun h => by rw [h]⟩
  have := congrArg (· ^^^ c) h
  simpa [BitVec.xor_assoc] using this

theorem xor_cancel_left {a b c : Word} : c ^^^ a = c ^^^ b ↔ a = b := by
  rw [BitVec.xor_comm c a, BitVec.xor_comm c b, xor_cancel_right]

theorem combine_seed {s t h : Word} : combine s h = combine t h ↔ s = t := by
  unfold combine
  rw [xor_cancel_right, rotl_inj]

theorem combine_value {s g h : Word} : combine s g = combine s h ↔ g = h := by
  unfold combine
  rw [xor_cancel_left, distribute_inj]

theorem container_append (s : Word) (as bs : List Word) :
    container s (as ++ bs) = container (container s as) bs := List.foldl_append

theorem container_seed {s t : Word} (hs : List Word) : container s hs = container t hs ↔ s = t := by
  induction hs generalizing s t with
  | nil => exact Iff.rfl
  | cons a as ih => exact ih.trans combine_seed

theorem ofInt_inj {a b : Int} (ha : -2 ^ 63 ≤ a ∧ a < 2 ^ 63) (hb : -2 ^ 63 ≤ b ∧ b < 2 ^ 63) :
    ofInt a = ofInt b ↔ a = b := by
  refine ⟨fun h => ?_, fun h => by rw [h]⟩
  have := congrArg BitVec.toInt h
  unfold ofInt at this
  rwa [BitVec.toInt_ofInt_eq_self (by omega) (by omega) (by omega),
    BitVec.toInt_ofInt_eq_self (by omega) (by omega) (by omega)] at this

/-- swapping two elements -/
theorem swap_iff (s a b : Word) : combine (combine s a) b = combine (combine s b) a ↔
    a = b ∨ distribute b = ~~~ distribute a := by
  unfold combine
  rw [rotl_xor, rotl_xor, BitVec.xor_assoc, BitVec.xor_assoc, xor_cancel_left]
  have e : (rotl (distribute a) (64 / 3) ^^^ distribute b = rotl (distribute b) (64 / 3) ^^^ distribute a) ↔
      rotl (distribute a ^^^ distribute b) (64 / 3) = distribute a ^^^ distribute b := by
    rw [rotl_xor, ← xor_cancel_right (c := distribute b ^^^ rotl (distribute b) (64 / 3))]
    have h1 : ∀ p q r : Word, p ^^^ q ^^^ (q ^^^ r) = p ^^^ r := by
      intro p q r
      rw [BitVec.xor_assoc, ← BitVec.xor_assoc q q, BitVec.xor_self, BitVec.zero_xor]
    have h2 : ∀ p q r : Word, r ^^^ p ^^^ (q ^^^ r) = p ^^^ q := by
      intro p q r
      rw [BitVec.xor_comm r p, BitVec.xor_assoc, BitVec.xor_comm q r, ← BitVec.xor_assoc r r, BitVec.xor_self,
        BitVec.zero_xor]
    rw [h1, h2]
  rw [e, rotl_fixed]
  apply or_congr
  · constructor
    · intro h
      have := congrArg (· ^^^ distribute b) h
      simp only [BitVec.xor_assoc, BitVec.xor_self, BitVec.xor_zero, BitVec.zero_xor] at this
      exact distribute_inj.mp this
    · rintro rfl
      exact BitVec.xor_self
  · constructor
    · intro h
      have := congrArg (distribute a ^^^ ·) h
      simp only [← BitVec.xor_assoc, BitVec.xor_self, BitVec.zero_xor] at this
      rw [this, BitVec.xor_allOnes]
    · intro h
      rw [h, ← BitVec.xor_allOnes, ← BitVec.xor_assoc, BitVec.xor_self, BitVec.zero_xor]

/-! ### equality of keys -/

theorem eqCoord_iff {a b : Coord} : eqCoord a b = true ↔ a = b := by
  unfold eqCoord
  cases a; cases b
  simp

theorem eqLink_iff {a b : LinkAttr} : eqLink a b = true ↔ a = b := by
  unfold eqLink
  rw [Bool.and_eq_true, eqCoord_iff]
  cases a; cases b
  simp

theorem eqNiu_iff {a b : NIUAttr} : eqNiu a b = true ↔ a = b := by
  unfold eqNiu
  rw [Bool.and_eq_true, eqCoord_iff]
  cases a; cases b
  simp

theorem eqZone_iff {a b : Zone} : eqZone a b = true ↔ a = b := by
  unfold eqZone
  cases a; cases b
  simp

theorem eqGrid_iff {a b : CoordGrid} : eqGrid a b = true ↔
    a.lo.row = b.lo.row ∧ a.lo.col = b.lo.col ∧ a.hi.row = b.hi.row ∧ a.hi.col = b.hi.col := by
  unfold eqGrid
  simp

theorem eqMcast_iff {as bs : List CoordGrid} :
    eqMcast as bs = true ↔ List.Forall₂ (fun a b => eqGrid a b = true) as bs := by
  unfold eqMcast
  induction as generalizing bs with
  | nil => cases bs <;> simp [eqGrids]
  | cons a as ih =>
    cases bs with
    | nil => simp
    | cons b bs =>
      rw [List.forall₂_cons, ← ih]
      simp [eqGrids]
      tauto

/-! ### lists without repetition, decided by splitting -/

/-- the elements without and with a bit -/
def splitBit (p : Nat) (xs : List Nat) : List Nat × List Nat :=
  List.rec ([], []) (fun y _ ih => cond (Nat.beq (Nat.land y p) 0) (y :: ih.1, ih.2) (ih.1, y :: ih.2)) xs

theorem splitBit_eq (p : Nat) (xs : List Nat) : splitBit p xs =
    (xs.filter fun y => Nat.beq (Nat.land y p) 0, xs.filter fun y => !Nat.beq (Nat.land y p) 0) := by
  induction xs with
  | nil => rfl
  | cons y xs ih =>
    change cond (Nat.beq (Nat.land y p) 0) (y :: (splitBit p xs).1, (splitBit p xs).2)
      ((splitBit p xs).1, y :: (splitBit p xs).2) = _
    rw [ih]
    rw [List.filter_cons, List.filter_cons]
    cases h : Nat.beq (Nat.land y p) 0 <;> rfl

/-- the elements differ in the next `n` bits from the one of value `p` on -/
def apart : Nat → Nat → List Nat → Bool
  | _, _, [] => true
  | _, _, [_] => true
  | 0, _, _ => false
  | n + 1, p, xs => (fun q => apart n (Nat.mul p 2) q.1 && apart n (Nat.mul p 2) q.2) (splitBit p xs)

theorem nodup_of_filters {p : Nat → Bool} {xs : List Nat} (h1 : (xs.filter p).Nodup)
    (h2 : (xs.filter fun y => !p y).Nodup) : xs.Nodup := by
  refine List.nodup_iff_count_le_one.mpr fun a => ?_
  by_cases h : p a = true
  · rw [← List.count_filter (p := p) h]
    exact List.nodup_iff_count_le_one.mp h1 a
  · rw [← List.count_filter (p := fun y => !p y) (by simpa using h)]
    exact List.nodup_iff_count_le_one.mp h2 a

theorem apart_nodup (n : Nat) : ∀ (p : Nat) (xs : List Nat), apart n p xs = true → xs.Nodup := by
  induction n with
  | zero =>
    intro p xs h
    match xs, h with
    | [], _ => exact List.nodup_nil
    | [_], _ => exact List.nodup_singleton _
  | succ n ih =>
    intro p xs h
    match xs, h with
    | [], _ => exact List.nodup_nil
    | [_], _ => exact List.nodup_singleton _
    | x :: y :: l, h =>
      have h' : (apart n (Nat.mul p 2) (splitBit p (x :: y :: l)).1 &&
        apart n (Nat.mul p 2) (splitBit p (x :: y :: l)).2) = true := h
      rw [splitBit_eq, Bool.and_eq_true] at h'
      exact nodup_of_filters (p := fun y => Nat.beq (Nat.land y p) 0) (ih _ _ h'.1) (ih _ _ h'.2)

/-! ### The same functions on numbers, which the kernel can compute with -/

def xorshiftN (n : Nat) : Nat := Nat.xor n (Nat.shiftRight n 32)

def distributeN (n : Nat) : Nat :=
  Nat.mod (Nat.mul 17316035218449499591
    (xorshiftN (Nat.mod (Nat.mul 0x5555555555555555 (xorshiftN n)) 18446744073709551616))) 18446744073709551616

def rotlN (n : Nat) : Nat :=
  Nat.lor (Nat.mod (Nat.shiftLeft n 21) 18446744073709551616) (Nat.shiftRight n 43)

def coordN (d r c : Nat) : Nat := Nat.xor (rotlN (Nat.xor (rotlN (distributeN d)) (distributeN r))) (distributeN c)

def keyN (d r c : Nat) : Nat := Nat.land (rotlN (distributeN (coordN d r c))) 4294967295

theorem xorshift_toNat (x : Word) : (xorshift x 32).toNat = xorshiftN x.toNat := by
  unfold xorshift xorshiftN
  rw [BitVec.toNat_xor, BitVec.toNat_ushiftRight]
  rfl

theorem distribute_toNat (x : Word) : (distribute x).toNat = distributeN x.toNat := by
  unfold distribute distributeN
  rw [BitVec.toNat_mul, xorshift_toNat, BitVec.toNat_mul, xorshift_toNat]
  rfl

theorem rotl_toNat (x : Word) : (rotl x (64 / 3)).toNat = rotlN x.toNat := by
  unfold rotl rotlN
  rw [BitVec.rotateLeft_def, BitVec.toNat_or, BitVec.toNat_shiftLeft, BitVec.toNat_ushiftRight]
  rfl

theorem ofInt_toNat {n : Nat} (h : n < 65536) : (ofInt (n : Int)).toNat = n := by
  unfold ofInt
  rw [BitVec.ofInt_natCast, BitVec.toNat_ofNat]
  exact Nat.mod_eq_of_lt (by omega)

theorem coord_toNat {d r c : Nat} (hd : d < 65536) (hr : r < 65536) (hc : c < 65536) :
    (coord ⟨d, r, c⟩).toNat = coordN d r c := by
  unfold coord combine coordN
  simp only
  rw [BitVec.toNat_xor, rotl_toNat, BitVec.toNat_xor, rotl_toNat, BitVec.toNat_xor, rotl_toNat, distribute_toNat,
    distribute_toNat, distribute_toNat, ofInt_toNat hd, ofInt_toNat hr, ofInt_toNat hc]
  have : rotlN (0#64 : Word).toNat = 0 := by decide +kernel
  rw [this, Nat.zero_xor]
  rfl

/-- the numbers of all coordinates of a board -/
def overBoard (D R C : Nat) (f : Nat → Nat → Nat → Nat) : List Nat :=
  (List.range D).flatMap fun (d : Nat) => (List.range R).flatMap fun (r : Nat) => (List.range C).map fun (c : Nat) => f d r c

theorem overBoard_eq {D R C : Nat} {f : Coord → Nat} {g : Nat → Nat → Nat → Nat}
    (h : ∀ d < D, ∀ r < R, ∀ c < C, f ⟨d, r, c⟩ = g d r c) :
    ((List.range D).flatMap fun (d : Nat) => (List.range R).flatMap fun (r : Nat) =>
      (List.range C).map fun (c : Nat) => (⟨d, r, c⟩ : Coord)).map f = overBoard D R C g := by
  unfold overBoard
  rw [List.map_flatMap]
  refine List.flatMap_congr fun d hd => ?_
  rw [List.map_flatMap]
  refine List.flatMap_congr fun r hr => ?_
  rw [List.map_map]
  refine List.map_congr_left fun c hc => ?_
  exact h d (List.mem_range.mp hd) r (List.mem_range.mp hr) c (List.mem_range.mp hc)

/-- all coordinates of boards of up to 36 chips of up to 12 rows and 17 columns -/
def allCoords : List Coord :=
  (List.range 36).flatMap fun (d : Nat) => (List.range 12).flatMap fun (r : Nat) =>
    (List.range 17).map fun (c : Nat) => ⟨d, r, c⟩

/-- the low half of what a coordinate contributes to the hash of a link -/
def lowKey (c : Coord) : Nat := Nat.land (rotl (combine 0#64 (coord c)) (64 / 3)).toNat 4294967295

theorem lowKey_eq {d r c : Nat} (hd : d < 65536) (hr : r < 65536) (hc : c < 65536) : lowKey ⟨d, r, c⟩ = keyN d r c := by
  unfold lowKey keyN combine
  rw [rotl_toNat, BitVec.toNat_xor, rotl_toNat, distribute_toNat, coord_toNat hd hr hc]
  have : rotlN (0#64 : Word).toNat = 0 := by decide +kernel
  rw [this, Nat.zero_xor]

theorem low_xor (x y : Word) (hy : y.toNat &&& 4294967295 = 0) :
    (x ^^^ y).toNat &&& 4294967295 = x.toNat &&& 4294967295 := by
  rw [BitVec.toNat_xor, Nat.and_xor_distrib_right, hy, Nat.xor_zero]

theorem link_low (t : LinkType) : (distribute (ofInt t.toInt)).toNat &&& 4294967295 = 0 := by
  cases t <;> decide +kernel

theorem niu_low (t : NIUType) : (distribute (ofInt (niuType t))).toNat &&& 4294967295 = 0 := by
  cases t <;> decide +kernel

theorem link_lowKey (a : LinkAttr) : (link a).toNat &&& 4294967295 = lowKey a.coord := low_xor _ _ (link_low _)

theorem niu_lowKey (a : NIUAttr) : (niu a).toNat &&& 4294967295 = lowKey a.coord := low_xor _ _ (niu_low _)

theorem link_type_inj {t u : LinkType} (h : ofInt t.toInt = ofInt u.toInt) : t = u := by
  cases t <;> cases u <;> first | rfl | exact absurd h (by decide)

theorem niu_type_inj {t u : NIUType} (h : ofInt (niuType t) = ofInt (niuType u)) : t = u := by
  cases t <;> cases u <;> first | rfl | exact absurd h (by decide)

theorem mem_allCoords {c : Coord} : c ∈ allCoords ↔
    (0 ≤ c.dev ∧ c.dev < 36) ∧ (0 ≤ c.row ∧ c.row < 12) ∧ 0 ≤ c.col ∧ c.col < 17 := by
  unfold allCoords
  simp only [List.mem_flatMap, List.mem_map, List.mem_range]
  constructor
  · rintro ⟨d, hd, r, hr, k, hk, rfl⟩
    refine ⟨⟨?_, ?_⟩, ⟨?_, ?_⟩, ?_, ?_⟩ <;> simp only <;> omega
  · rintro ⟨⟨h1, h2⟩, ⟨h3, h4⟩, h5, h6⟩
    refine ⟨c.dev.toNat, by omega, c.row.toNat, by omega, c.col.toNat, by omega, ?_⟩
    cases c
    simp only at *
    rw [Int.toNat_of_nonneg h1, Int.toNat_of_nonneg h3, Int.toNat_of_nonneg h5]

end NPE.Hash
