import Verif.Props.Route

/-
Property C08: exactly which cores of the destination a multicast route reaches.
-/

namespace NPE.Props
open NPE Spec Device

/-- A core of the rectangle that a multicast reaches: on NoC 0 not above the source if the source lies above the end of
the rectangle or in its last row; on NoC 1 only in the last column and, if the source is left of it, left of the
source. -/
def Reached (noc : Noc) (s : Coord) (g : CoordGrid) (c : Coord) : Prop :=
  match noc with
  | .noc0 => s.row ≤ c.row ∨ g.hi.row < s.row
  | .noc1 => c.col = g.hi.col ∨ (c.col ≤ s.col ∧ s.col < g.hi.col)

/-- A path ends where it begins or where one of its links leads. -/
theorem path_end {rows cols : Nat} {s e : Coord} {p : List LinkAttr} (h : IsPath rows cols s p e) :
    e = s ∨ ∃ l ∈ p, linkTarget rows cols l = e := by
  induction h with
  | nil c => exact Or.inl rfl
  | @cons l ls e _ ih =>
    rcases ih with rfl | ⟨l', hl', rfl⟩
    · exact Or.inr ⟨l, by simp, rfl⟩
    · exact Or.inr ⟨l', by simp [hl'], rfl⟩

theorem wrap_sub {a b : Int} {n : Nat} (ha : 0 ≤ a) (ha' : a < n) (hb : 0 ≤ b) (hb' : b < n) :
    (a - b) % (n : Int) = if b ≤ a then a - b else a - b + n := by
  split_ifs with h
  · exact Int.emod_eq_of_lt (by omega) (by omega)
  · rw [← Int.add_emod_right]; exact Int.emod_eq_of_lt (by omega) (by omega)

theorem legs_noc1_prefix (dev : Device) (d : Int) (s a b : Coord) (hc : a.row = b.row)
    (h : ((s.col - a.col) % dev.cols).toNat ≤ ((s.col - b.col) % dev.cols).toNat) :
    ∀ l ∈ dev.legs d .noc1 s a, l ∈ dev.legs d .noc1 s b := by
  intro l hl
  simp only [legs, northLeg, westLeg, List.mem_append, List.mem_map, List.mem_range, hc] at hl ⊢
  rcases hl with h1 | ⟨k, hk, rfl⟩
  · left; exact h1
  · right; exact ⟨k, by omega, rfl⟩

/-- Where the links of a route to the far edge lead. -/
theorem legs_target {dev : Device} {noc : Noc} {s x : Coord} {g : CoordGrid} (hs : dev.OnG s.row s.col)
    (hx : dev.OnG x.row x.col) (hfar : farEdge noc g x) {l : LinkAttr} (hl : l ∈ dev.legs s.dev noc s x) :
    match noc with
    | .noc0 => s.row ≤ (linkTarget dev.rows dev.cols l).row ∨ g.hi.row < s.row
    | .noc1 => (linkTarget dev.rows dev.cols l).col = s.col ∨ g.hi.col ≤ (linkTarget dev.rows dev.cols l).col ∨
        ((linkTarget dev.rows dev.cols l).col ≤ s.col ∧ s.col < g.hi.col) := by
  obtain ⟨⟨hs1, hs2⟩, hs3, hs4⟩ := hs
  obtain ⟨⟨hx1, hx2⟩, hx3, hx4⟩ := hx
  cases noc with
  | noc0 =>
    obtain ⟨e1, _⟩ := hfar
    simp only [legs, eastLeg, southLeg, List.mem_append, List.mem_map, List.mem_range] at hl
    simp only
    rcases hl with ⟨k, hk, rfl⟩ | ⟨k, hk, rfl⟩
    · left; simp [linkTarget]
    · by_cases hle : s.row ≤ x.row
      · left
        rw [wrap_sub hx1 hx2 hs1 hs2, if_pos hle] at hk
        simp only [linkTarget]
        rw [Int.emod_add_emod, Int.emod_eq_of_lt (by omega) (by omega)]
        omega
      · right; omega
  | noc1 =>
    obtain ⟨e1, _⟩ := hfar
    simp only [legs, northLeg, westLeg, List.mem_append, List.mem_map, List.mem_range] at hl
    simp only
    rcases hl with ⟨k, hk, rfl⟩ | ⟨k, hk, rfl⟩
    · left; simp [linkTarget]
    · right
      rw [wrap_sub hs3 hs4 hx3 hx4] at hk
      simp only [linkTarget]
      rw [Int.emod_sub_emod]
      split_ifs at hk with hle
      · left
        rw [Int.emod_eq_of_lt (by omega) (by omega)]
        omega
      · by_cases h0 : (k : Int) + 1 ≤ s.col
        · right
          rw [Int.emod_eq_of_lt (by omega) (by omega)]
          omega
        · left
          rw [← Int.add_emod_right, Int.emod_eq_of_lt (by omega) (by omega)]
          omega

/-- C08, exactly: a core of the rectangle is reached over links of the route if and only if it is `Reached`. -/
theorem C08_reached (dev : Device) (hdev : DeviceOk dev) (ord : List Int → List Int) (hord : ∀ l, (ord l).Perm l)
    (noc : Noc) (s : Coord) (g : CoordGrid) (hs : IsCore dev s) (hlo : IsCore dev g.lo) (hhi : IsCore dev g.hi)
    (h1 : g.lo.dev = s.dev) :
    ∃ ids ls, dev.route ord noc s (.mcast [g]) = .ok ids ∧ Denotes dev ids ls ∧
      ∀ c, InRect g c → ((∃ p, IsPath dev.rows dev.cols s p c ∧ ∀ l ∈ p, l ∈ ls) ↔ Reached noc s g c) := by
  obtain ⟨ids, hr, hn, hm⟩ := dev.route_mcast_eq hdev ord hord noc s g hs hlo.2 hhi.2 h1
  obtain ⟨ls, hls⟩ := dev.denotes_exists ids (by
    intro i hi
    rw [hm] at hi
    obtain ⟨x, _, hxg, hi⟩ := hi
    obtain ⟨l, hl, rfl⟩ := List.mem_map.mp hi
    exact ⟨l, dev.legs_on _ _ _ _ hs.1 hs.2 hxg l hl, rfl⟩)
  refine ⟨ids, ls, hr, hls, ?_⟩
  intro c hc
  obtain ⟨hcd, hcr, hcc⟩ := hc
  have hl1 := hlo.2.1; have hl2 := hlo.2.2; have hh1 := hhi.2.1; have hh2 := hhi.2.2
  have hs1 := hs.2.1; have hs2 := hs.2.2
  have hcg : dev.OnG c.row c.col := ⟨by omega, by omega⟩
  constructor
  · rintro ⟨p, hp, hpl⟩
    have hcase : c = s ∨ ∃ x l, farEdge noc g x ∧ dev.OnG x.row x.col ∧ l ∈ dev.legs s.dev noc s x ∧
        linkTarget dev.rows dev.cols l = c := by
      rcases path_end hp with rfl | ⟨l, hl, rfl⟩
      · exact Or.inl rfl
      · right
        obtain ⟨i, hi, hli⟩ := (dev.denotes_mem hls l).mp (hpl l hl)
        obtain ⟨x, hx, hxg, hi⟩ := (hm i).mp hi
        obtain ⟨l', hl', rfl⟩ := List.mem_map.mp hi
        have := (dev.getLinkAttributes_eq (dev.linkIdx l' : Int) l').mpr
          ⟨dev.legs_on _ _ _ _ hs.1 hs.2 hxg l' hl', rfl⟩
        rw [this] at hli
        have := Out.ok.inj hli
        subst this
        exact ⟨x, l', hx, hxg, hl', rfl⟩
    rcases hcase with rfl | ⟨x, l, hx, hxg, hl, rfl⟩
    · cases noc
      · exact Or.inl (le_refl _)
      · simp only [Reached]; omega
    · have := legs_target hs.2 hxg hx hl
      cases noc
      · exact this
      · simp only [Reached] at this ⊢; omega
  · intro hreach
    refine ⟨dev.legs s.dev noc s c, dev.legs_path _ _ _ _ rfl (by rw [hcd, h1]) hs.2 hcg, ?_⟩
    intro l hl
    rw [dev.denotes_mem hls]
    refine ⟨dev.linkIdx l, ?_, (dev.getLinkAttributes_eq _ _).mpr
      ⟨dev.legs_on _ _ _ _ hs.1 hs.2 hcg l hl, rfl⟩⟩
    rw [hm]
    cases noc with
    | noc0 =>
      refine ⟨⟨s.dev, g.hi.row, c.col⟩, ⟨rfl, hcc⟩, ⟨hhi.2.1, hcg.2⟩, List.mem_map.mpr ⟨l, ?_, rfl⟩⟩
      refine dev.legs_noc0_prefix s.dev s c ⟨s.dev, g.hi.row, c.col⟩ rfl ?_ l hl
      rw [wrap_sub hcg.1.1 hcg.1.2 hs1.1 hs1.2]
      simp only
      rw [wrap_sub hh1.1 hh1.2 hs1.1 hs1.2]
      simp only [Reached] at hreach
      split_ifs <;> omega
    | noc1 =>
      refine ⟨⟨s.dev, c.row, g.hi.col⟩, ⟨rfl, hcr⟩, ⟨hcg.1, hhi.2.2⟩, List.mem_map.mpr ⟨l, ?_, rfl⟩⟩
      refine legs_noc1_prefix dev s.dev s c ⟨s.dev, c.row, g.hi.col⟩ rfl ?_ l hl
      rw [wrap_sub hs2.1 hs2.2 hcg.2.1 hcg.2.2]
      simp only
      rw [wrap_sub hs2.1 hs2.2 hh2.1 hh2.2]
      simp only [Reached] at hreach
      split_ifs <;> omega

/-- So the whole rectangle is reached exactly if no core of it is left out. -/
theorem C08_complete (noc : Noc) (s : Coord) (g : CoordGrid) (hrow : g.lo.row ≤ g.hi.row) (hcol : g.lo.col ≤ g.hi.col) :
    (∀ c, InRect g c → Reached noc s g c) ↔ match noc with
      | .noc0 => s.row ≤ g.lo.row ∨ g.hi.row < s.row
      | .noc1 => g.lo.col = g.hi.col ∨ s.col + 1 = g.hi.col := by
  cases noc with
  | noc0 =>
    simp only [Reached]
    constructor
    · intro h
      exact h ⟨g.lo.dev, g.lo.row, g.lo.col⟩ ⟨rfl, ⟨le_refl _, hrow⟩, le_refl _, hcol⟩
    · rintro h c ⟨_, hr, _⟩
      omega
  | noc1 =>
    simp only [Reached]
    constructor
    · intro h
      have h1 := h ⟨g.lo.dev, g.lo.row, g.lo.col⟩ ⟨rfl, ⟨le_refl _, hrow⟩, le_refl _, hcol⟩
      simp only at h1
      by_contra hc
      have h2 := h ⟨g.lo.dev, g.lo.row, g.hi.col - 1⟩ ⟨rfl, ⟨le_refl _, hrow⟩, by simp only; omega, by simp only; omega⟩
      simp only at h2
      omega
    · rintro h c ⟨_, _, hc⟩
      omega

/-- On NoC 1, a multicast from core (5,5) to the cores in columns 1 to 3 of row 1 reaches column 3 only; from core (5,2) it
reaches all of them. -/
example : (¬ Reached .noc1 ⟨0, 5, 5⟩ ⟨⟨0, 1, 1⟩, ⟨0, 1, 3⟩⟩ ⟨0, 1, 2⟩ ∧ Reached .noc1 ⟨0, 5, 5⟩ ⟨⟨0, 1, 1⟩, ⟨0, 1, 3⟩⟩ ⟨0, 1, 3⟩ ∧
    Reached .noc1 ⟨0, 5, 2⟩ ⟨⟨0, 1, 1⟩, ⟨0, 1, 3⟩⟩ ⟨0, 1, 2⟩) ∧
    (wormhole .exact false 1).route id .noc1 ⟨0, 5, 2⟩ (.mcast [⟨⟨0, 1, 1⟩, ⟨0, 1, 3⟩⟩]) =
      .ok [210, 170, 130, 90, 51, 47, 43, 79, 75, 71, 67, 63, 59] := by
  refine ⟨⟨by simp [Reached], by simp [Reached], by simp [Reached]⟩, by decide +kernel⟩

end NPE.Props
