import Verif.Model.Device
import Mathlib.Tactic.Ring
import Mathlib.Tactic.Linarith
import Mathlib.Tactic.IntervalCases

/- Helper lemmas about link and NIU identifiers. -/

namespace NPE

theorem length_flatMap_const {α : Type} (n m : Nat) (f : Nat → List α)
    (h : ∀ k, (f k).length = m) : ((List.range n).flatMap f).length = n * m := by
  induction n with
  | zero => simp
  | succ n ih => rw [List.range_succ, List.flatMap_append, List.length_append, ih]; simp [h]; ring

theorem getElem?_flatMap_const {α : Type} (n m : Nat) (f : Nat → List α)
    (h : ∀ k, (f k).length = m) (i : Nat) (a : α) :
    ((List.range n).flatMap f)[i]? = some a ↔
      ∃ k j, k < n ∧ j < m ∧ i = k * m + j ∧ (f k)[j]? = some a := by
  induction n with
  | zero => simp
  | succ n ih =>
    rw [List.range_succ, List.flatMap_append, List.getElem?_append,
      length_flatMap_const n m f h]
    split_ifs with hi
    · rw [ih]
      constructor
      · rintro ⟨k, j, hk, r⟩; exact ⟨k, j, by omega, r⟩
      · rintro ⟨k, j, hk, hj, rfl, r⟩
        refine ⟨k, j, ?_, hj, rfl, r⟩
        by_contra hn
        have : n * m ≤ k * m := Nat.mul_le_mul_right _ (by omega)
        omega
    · simp only [List.flatMap_cons, List.flatMap_nil, List.append_nil]
      constructor
      · intro hh
        have hlt : i - n * m < m := by
          have := (List.getElem?_eq_some_iff.mp hh).1
          rw [h] at this; exact this
        exact ⟨n, i - n * m, by omega, hlt, by omega, hh⟩
      · rintro ⟨k, j, hk, hj, rfl, r⟩
        have hkn : k = n := by
          by_contra hne
          have : (k + 1) * m ≤ n * m := Nat.mul_le_mul_right _ (by omega)
          rw [Nat.add_mul] at this
          omega
        subst hkn
        simpa using r

theorem lookup_of_mem {α β : Type} [BEq α] [LawfulBEq α] (l : List (α × β))
    (huniq : ∀ a b b', (a, b) ∈ l → (a, b') ∈ l → b = b') (a : α) (b : β) :
    l.lookup a = some b ↔ (a, b) ∈ l := by
  induction l with
  | nil => simp
  | cons e l ih =>
    rcases e with ⟨x, y⟩
    rw [List.lookup_cons]
    by_cases h : a = x
    · subst h
      simp only [beq_self_eq_true, Option.some.injEq, List.mem_cons, Prod.mk.injEq, true_and]
      constructor
      · intro h; left; exact h.symm
      · rintro (h | h)
        · exact h.symm
        · exact huniq a y b (by simp) (by simp [h])
    · have h' : (a == x) = false := by simpa using h
      rw [h']
      simp only [List.mem_cons, Prod.mk.injEq]
      rw [ih (fun a b b' h1 h2 => huniq a b b' (by simp [h1]) (by simp [h2]))]
      simp [h]

theorem toI16_of_lt {n : Nat} (h : n < 32768) : toI16 n = n := by
  unfold toI16
  have h1 : ((n : Int) % 65536) = n := Int.emod_eq_of_lt (by omega) (by omega)
  simp only [h1]
  rw [if_pos (by omega)]

theorem idMap_lookup {α : Type} [BEq α] [LawfulBEq α] (table : List α)
    (hinj : ∀ (i j : Nat) (a : α), table[i]? = some a → table[j]? = some a → i = j)
    (hlen : table.length ≤ 32768) (a : α) (v : Int) :
    (Device.idMap table).lookup a = some v ↔ ∃ i : Nat, v = i ∧ table[i]? = some a := by
  have hm : ∀ (a : α) (v : Int), (a, v) ∈ Device.idMap table ↔ ∃ i : Nat, v = i ∧ table[i]? = some a := by
    intro a v
    unfold Device.idMap
    simp only [List.mem_reverse, List.mem_map, Prod.mk.injEq, Prod.exists]
    constructor
    · rintro ⟨x, i, hx, rfl, rfl⟩
      have h := List.mem_zipIdx' hx
      refine ⟨i, toI16_of_lt (by omega), ?_⟩
      rw [h.2]; simp [h.1]
    · rintro ⟨i, rfl, hi⟩
      obtain ⟨hlt, rfl⟩ := List.getElem?_eq_some_iff.mp hi
      refine ⟨table[i], i, ?_, rfl, toI16_of_lt (by omega)⟩
      rw [List.mk_mem_zipIdx_iff_getElem?]; exact hi
  rw [lookup_of_mem _ _ a v, hm]
  intro a b b' h1 h2
  obtain ⟨i, rfl, hi⟩ := (hm a b).mp h1
  obtain ⟨j, rfl, hj⟩ := (hm a b').mp h2
  rw [hinj i j a hi hj]

namespace Device

/-- Position of a link type in `linkTypes`. -/
def linkPos : LinkType → Nat
  | .noc0East => 0
  | .noc0South => 1
  | .noc1North => 2
  | .noc1West => 3

/-- Position of a NIU type in `niuTypes`. -/
def niuPos : NIUType → Nat
  | .noc0Src => 0
  | .noc0Sink => 1
  | .noc1Src => 2
  | .noc1Sink => 3

variable (dev : Device)

/-- The coordinate lies on a chip of the device. -/
def On (c : Coord) : Prop :=
  (0 ≤ c.dev ∧ c.dev < dev.chips) ∧ (0 ≤ c.row ∧ c.row < dev.rows) ∧ (0 ≤ c.col ∧ c.col < dev.cols)

/-- Index of element `p` of coordinate `c` in the tables. -/
def flatIdx (c : Coord) (p : Nat) : Nat :=
  (c.dev.toNat * dev.rows + c.row.toNat) * (dev.cols * 4) + c.col.toNat * 4 + p

theorem table_get {α τ : Type} (mk : Coord → τ → α) (types : List τ) (htl : types.length = 4)
    (i : Nat) (a : α) :
    ((List.range dev.chips).flatMap fun (d : Nat) => (List.range dev.rows).flatMap fun (r : Nat) =>
      (List.range dev.cols).flatMap fun (c : Nat) => types.map fun t => mk ⟨d, r, c⟩ t)[i]? = some a ↔
    ∃ c p t, dev.On c ∧ types[p]? = some t ∧ i = dev.flatIdx c p ∧ a = mk c t := by
  have h1 : ∀ d r c : Nat, (types.map fun t => mk ⟨d, r, c⟩ t).length = 4 := by simp [htl]
  have h2 : ∀ d r : Nat, ((List.range dev.cols).flatMap fun (c : Nat) =>
      types.map fun t => mk ⟨d, r, c⟩ t).length = dev.cols * 4 :=
    fun d r => length_flatMap_const _ _ _ (h1 d r)
  have h3 : ∀ d : Nat, ((List.range dev.rows).flatMap fun (r : Nat) => (List.range dev.cols).flatMap fun (c : Nat) =>
      types.map fun t => mk ⟨d, r, c⟩ t).length = dev.rows * (dev.cols * 4) :=
    fun d => length_flatMap_const _ _ _ (h2 d)
  rw [getElem?_flatMap_const _ _ _ h3]
  constructor
  · rintro ⟨d, j, hd, hj, rfl, h⟩
    rw [getElem?_flatMap_const _ _ _ (h2 d)] at h
    obtain ⟨r, j2, hr, hj2, rfl, h⟩ := h
    rw [getElem?_flatMap_const _ _ _ (h1 d r)] at h
    obtain ⟨c, j3, hc, hj3, rfl, h⟩ := h
    rw [List.getElem?_map] at h
    obtain ⟨t, ht, rfl⟩ := Option.map_eq_some_iff.mp h
    refine ⟨⟨d, r, c⟩, j3, t, ?_, ht, ?_, rfl⟩
    · unfold On; simp; omega
    · unfold flatIdx; simp; ring
  · rintro ⟨⟨d, r, c⟩, p, t, ⟨⟨hd, hd'⟩, ⟨hr, hr'⟩, ⟨hc, hc'⟩⟩, hp, rfl, rfl⟩
    have hplt : p < 4 := by
      have := (List.getElem?_eq_some_iff.mp hp).1; omega
    simp only at hd hd' hr hr' hc hc'
    obtain ⟨d, rfl⟩ := Int.eq_ofNat_of_zero_le hd
    obtain ⟨r, rfl⟩ := Int.eq_ofNat_of_zero_le hr
    obtain ⟨c, rfl⟩ := Int.eq_ofNat_of_zero_le hc
    have hc4 : c * 4 + p < dev.cols * 4 := by omega
    have hr4 : r * (dev.cols * 4) + (c * 4 + p) < dev.rows * (dev.cols * 4) := by
      have : (r + 1) * (dev.cols * 4) ≤ dev.rows * (dev.cols * 4) := Nat.mul_le_mul_right _ (by omega)
      rw [Nat.add_mul] at this
      omega
    refine ⟨d, r * (dev.cols * 4) + (c * 4 + p), by omega, hr4, ?_, ?_⟩
    · unfold flatIdx; simp; ring
    · rw [getElem?_flatMap_const _ _ _ (h2 d)]
      refine ⟨r, c * 4 + p, by omega, hc4, rfl, ?_⟩
      rw [getElem?_flatMap_const _ _ _ (h1 d r)]
      refine ⟨c, p, by omega, hplt, rfl, ?_⟩
      rw [List.getElem?_map, hp]; rfl

theorem table_length {α τ : Type} (mk : Coord → τ → α) (types : List τ) (htl : types.length = 4) :
    ((List.range dev.chips).flatMap fun (d : Nat) => (List.range dev.rows).flatMap fun (r : Nat) =>
      (List.range dev.cols).flatMap fun (c : Nat) => types.map fun t => mk ⟨d, r, c⟩ t).length =
    dev.chips * (dev.rows * (dev.cols * 4)) := by
  apply length_flatMap_const; intro d
  apply length_flatMap_const; intro r
  apply length_flatMap_const; intro c
  simp [htl]

theorem linkTypes_get (p : Nat) (t : LinkType) : linkTypes[p]? = some t ↔ p = linkPos t := by
  constructor
  · intro h
    have hp := (List.getElem?_eq_some_iff.mp h).1
    simp only [linkTypes, List.length_cons, List.length_nil] at hp
    interval_cases p <;> simp [linkTypes] at h <;> subst h <;> rfl
  · rintro rfl; cases t <;> rfl

theorem niuTypes_get (p : Nat) (t : NIUType) : niuTypes[p]? = some t ↔ p = niuPos t := by
  constructor
  · intro h
    have hp := (List.getElem?_eq_some_iff.mp h).1
    simp only [niuTypes, List.length_cons, List.length_nil] at hp
    interval_cases p <;> simp [niuTypes] at h <;> subst h <;> rfl
  · rintro rfl; cases t <;> rfl

/-- Number of links (and of NIUs). -/
def nLinks : Nat := dev.chips * (dev.rows * (dev.cols * 4))

theorem linkTable_get (i : Nat) (a : LinkAttr) :
    dev.linkTable[i]? = some a ↔ dev.On a.coord ∧ i = dev.flatIdx a.coord (linkPos a.type) := by
  unfold linkTable
  rw [dev.table_get (fun c t => (⟨c, t⟩ : LinkAttr)) linkTypes rfl]
  constructor
  · rintro ⟨c, p, t, h1, h2, h3, rfl⟩
    rw [linkTypes_get] at h2; subst h2
    exact ⟨h1, h3⟩
  · rintro ⟨h1, h2⟩
    exact ⟨a.coord, _, a.type, h1, (linkTypes_get _ _).mpr rfl, h2, rfl⟩

theorem niuTable_get (i : Nat) (a : NIUAttr) :
    dev.niuTable[i]? = some a ↔ dev.On a.coord ∧ i = dev.flatIdx a.coord (niuPos a.type) := by
  unfold niuTable
  rw [dev.table_get (fun c t => (⟨c, t⟩ : NIUAttr)) niuTypes rfl]
  constructor
  · rintro ⟨c, p, t, h1, h2, h3, rfl⟩
    rw [niuTypes_get] at h2; subst h2
    exact ⟨h1, h3⟩
  · rintro ⟨h1, h2⟩
    exact ⟨a.coord, _, a.type, h1, (niuTypes_get _ _).mpr rfl, h2, rfl⟩

theorem linkTable_length : dev.linkTable.length = dev.nLinks :=
  dev.table_length (fun c t => (⟨c, t⟩ : LinkAttr)) linkTypes rfl

theorem niuTable_length : dev.niuTable.length = dev.nLinks :=
  dev.table_length (fun c t => (⟨c, t⟩ : NIUAttr)) niuTypes rfl

/-- Identifier of a link. -/
def linkIdx (a : LinkAttr) : Nat := dev.flatIdx a.coord (linkPos a.type)
/-- Identifier of a NIU. -/
def niuIdx (a : NIUAttr) : Nat := dev.flatIdx a.coord (niuPos a.type)

theorem getLinkID_eq (hl : dev.nLinks ≤ 32768) (a : LinkAttr) (h : dev.On a.coord) :
    dev.getLinkID a = .ok (dev.linkIdx a) := by
  have h2 := (idMap_lookup dev.linkTable (fun i j a hi hj => by
    rw [linkTable_get] at hi hj; rw [hi.2, hj.2]) (by rw [linkTable_length]; exact hl) a
    (dev.linkIdx a)).mpr ⟨_, rfl, (dev.linkTable_get _ _).mpr ⟨h, rfl⟩⟩
  unfold getLinkID; rw [h2]

theorem getLinkID_off (hl : dev.nLinks ≤ 32768) (a : LinkAttr) (h : ¬ dev.On a.coord) :
    dev.getLinkID a = .exc .undef := by
  unfold getLinkID
  cases hh : (idMap dev.linkTable).lookup a with
  | none => rfl
  | some v =>
    obtain ⟨i, _, hi⟩ := (idMap_lookup dev.linkTable (fun i j a hi hj => by
      rw [linkTable_get] at hi hj; rw [hi.2, hj.2]) (by rw [linkTable_length]; exact hl) a v).mp hh
    exact absurd ((dev.linkTable_get _ _).mp hi).1 h

theorem getNIUID_eq (hl : dev.nLinks ≤ 32768) (a : NIUAttr) (h : dev.On a.coord) :
    dev.getNIUID a = .ok (dev.niuIdx a) := by
  have h2 := (idMap_lookup dev.niuTable (fun i j a hi hj => by
    rw [niuTable_get] at hi hj; rw [hi.2, hj.2]) (by rw [niuTable_length]; exact hl) a
    (dev.niuIdx a)).mpr ⟨_, rfl, (dev.niuTable_get _ _).mpr ⟨h, rfl⟩⟩
  unfold getNIUID; rw [h2]

theorem getNIUID_off (hl : dev.nLinks ≤ 32768) (a : NIUAttr) (h : ¬ dev.On a.coord) :
    dev.getNIUID a = .exc .undef := by
  unfold getNIUID
  cases hh : (idMap dev.niuTable).lookup a with
  | none => rfl
  | some v =>
    obtain ⟨i, _, hi⟩ := (idMap_lookup dev.niuTable (fun i j a hi hj => by
      rw [niuTable_get] at hi hj; rw [hi.2, hj.2]) (by rw [niuTable_length]; exact hl) a v).mp hh
    exact absurd ((dev.niuTable_get _ _).mp hi).1 h

theorem getLinkAttributes_eq (i : Int) (a : LinkAttr) :
    dev.getLinkAttributes i = .ok a ↔ dev.On a.coord ∧ i = dev.linkIdx a := by
  unfold getLinkAttributes
  by_cases h : i < 0
  · simp only [h, if_true]
    constructor
    · intro h; cases h
    · rintro ⟨_, rfl⟩; omega
  · rw [if_neg h]
    have key := dev.linkTable_get i.toNat a
    cases hh : dev.linkTable[i.toNat]? with
    | none =>
      simp only
      rw [hh] at key
      constructor
      · intro h; cases h
      · rintro ⟨h1, rfl⟩
        have := key.mpr ⟨h1, by simp [linkIdx]⟩
        cases this
    | some b =>
      rw [hh] at key
      simp only [Out.ok.injEq, Option.some.injEq] at key ⊢
      rw [key]
      unfold linkIdx
      constructor
      · rintro ⟨h1, h2⟩; exact ⟨h1, by omega⟩
      · rintro ⟨h1, h2⟩; exact ⟨h1, by omega⟩

theorem getNIUAttributes_eq (i : Int) (a : NIUAttr) :
    dev.getNIUAttributes i = .ok a ↔ dev.On a.coord ∧ i = dev.niuIdx a := by
  unfold getNIUAttributes
  by_cases h : i < 0
  · simp only [h, if_true]
    constructor
    · intro h; cases h
    · rintro ⟨_, rfl⟩; omega
  · rw [if_neg h]
    have key := dev.niuTable_get i.toNat a
    cases hh : dev.niuTable[i.toNat]? with
    | none =>
      simp only
      rw [hh] at key
      constructor
      · intro h; cases h
      · rintro ⟨h1, rfl⟩
        have := key.mpr ⟨h1, by simp [niuIdx]⟩
        cases this
    | some b =>
      rw [hh] at key
      simp only [Out.ok.injEq, Option.some.injEq] at key ⊢
      rw [key]
      unfold niuIdx
      constructor
      · rintro ⟨h1, h2⟩; exact ⟨h1, by omega⟩
      · rintro ⟨h1, h2⟩; exact ⟨h1, by omega⟩

/-- Two on-device links with the same identifier are equal. -/
theorem linkIdx_inj {a b : LinkAttr} (ha : dev.On a.coord) (hb : dev.On b.coord)
    (h : dev.linkIdx a = dev.linkIdx b) : a = b := by
  have h1 := (dev.getLinkAttributes_eq (dev.linkIdx a) a).mpr ⟨ha, rfl⟩
  have h2 := (dev.getLinkAttributes_eq (dev.linkIdx a) b).mpr ⟨hb, by rw [h]⟩
  rw [h1] at h2; exact Out.ok.inj h2

theorem niuIdx_inj {a b : NIUAttr} (ha : dev.On a.coord) (hb : dev.On b.coord)
    (h : dev.niuIdx a = dev.niuIdx b) : a = b := by
  have h1 := (dev.getNIUAttributes_eq (dev.niuIdx a) a).mpr ⟨ha, rfl⟩
  have h2 := (dev.getNIUAttributes_eq (dev.niuIdx a) b).mpr ⟨hb, by rw [h]⟩
  rw [h1] at h2; exact Out.ok.inj h2

theorem linkIdx_lt (a : LinkAttr) (h : dev.On a.coord) : dev.linkIdx a < dev.nLinks := by
  have := (dev.linkTable_get (dev.linkIdx a) a).mpr ⟨h, rfl⟩
  have := (List.getElem?_eq_some_iff.mp this).1
  rwa [linkTable_length] at this

theorem niuIdx_lt (a : NIUAttr) (h : dev.On a.coord) : dev.niuIdx a < dev.nLinks := by
  have := (dev.niuTable_get (dev.niuIdx a) a).mpr ⟨h, rfl⟩
  have := (List.getElem?_eq_some_iff.mp this).1
  rwa [niuTable_length] at this

end Device
end NPE
