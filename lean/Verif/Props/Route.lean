import Verif.Proofs.Multicast

/-
Properties C05 to C11, C53, C54, C55 (device names) and C60: routes, identifiers, enumeration.
-/

namespace NPE.Props
open NPE Spec Device

theorem wormhole_ok (fp : FP) (multi : Bool) (n : Nat) (h0 : 0 < n) (h1 : n ≤ 68)
    (h2 : multi = false → n = 1) : DeviceOk (wormhole fp multi n) where
  rows_pos := by show 0 < 12; omega
  cols_pos := by show 0 < 10; omega
  chips_pos := h0
  ids := by show n * (12 * (10 * 4)) ≤ 32768; omega
  single := h2

theorem blackhole_ok (fp : FP) (b : Bool) : DeviceOk (blackhole fp b) where
  rows_pos := by show 0 < 12; omega
  cols_pos := by show 0 < 17; omega
  chips_pos := by show 0 < 1; omega
  ids := by show 1 * (12 * (17 * 4)) ≤ 32768; omega
  single := fun _ => rfl

/-- Every device the factory creates is sane, for every rounding mode. -/
theorem factory_devices_ok (fp : FP) (name : String) (dev : Device)
    (h : createDeviceModel fp name = .ok dev) : DeviceOk dev := by
  unfold createDeviceModel at h
  split_ifs at h
  · rw [← Out.ok.inj h]; exact wormhole_ok _ _ _ (by omega) (by omega) (fun _ => rfl)
  · rw [← Out.ok.inj h]; exact wormhole_ok _ _ _ (by omega) (by omega) (by simp)
  · rw [← Out.ok.inj h]; exact wormhole_ok _ _ _ (by omega) (by omega) (by simp)
  · rw [← Out.ok.inj h]; exact blackhole_ok _ _
  · rw [← Out.ok.inj h]; exact blackhole_ok _ _
  · rw [← Out.ok.inj h]; exact wormhole_ok _ _ _ (by omega) (by omega) (by simp)
  · rw [← Out.ok.inj h]; exact wormhole_ok _ _ _ (by omega) (by omega) (by simp)

/-- The core coordinate hypotheses are satisfiable on a real device. -/
example : DeviceOk (wormhole .exact true 8) ∧ IsCore (wormhole .exact true 8) ⟨7, 11, 9⟩ :=
  ⟨wormhole_ok _ _ _ (by omega) (by omega) (by simp), by simp [IsCore, wormhole]⟩

/-! ### C05, C06: unicast routes -/

/-- C05.  A unicast route is a connected path from the source to the destination, in dimension
order, using only links of the NoC, and it is empty exactly when source and destination are the
same core. -/
theorem C05_unicast_path (dev : Device) (hdev : DeviceOk dev) (ord : List Int → List Int)
    (noc : Noc) (s e : Coord) (hs : IsCore dev s) (he : IsCore dev e) (hse : e.dev = s.dev) :
    ∃ ids ls, dev.route ord noc s (.unicast e) = .ok ids ∧ Denotes dev ids ls ∧
      IsPath dev.rows dev.cols s ls e ∧ DimOrdered noc ls ∧ (ids = [] ↔ s = e) := by
  refine ⟨_, dev.legs s.dev noc s e, dev.route_unicast_eq hdev ord noc s e hs he hse,
    dev.denotes_map _ (dev.legs_on _ _ _ _ hs.1 hs.2 he.2), dev.legs_path _ _ _ _ rfl hse hs.2 he.2,
    dev.legs_ordered _ _ _ _, ?_⟩
  rw [List.map_eq_nil_iff, ← List.length_eq_zero_iff]
  have h := dev.legs_length s.dev noc s e hs.2
  have hc : (dev.cols : Int) ≠ 0 := by have := hdev.cols_pos; omega
  have hr : (dev.rows : Int) ≠ 0 := by have := hdev.rows_pos; omega
  have h1 := Int.emod_nonneg (e.col - s.col) hc
  have h2 := Int.emod_nonneg (e.row - s.row) hr
  have h3 := Int.emod_nonneg (s.col - e.col) hc
  have h4 := Int.emod_nonneg (s.row - e.row) hr
  have ec : s = e ↔ s.row = e.row ∧ s.col = e.col := by
    rcases s with ⟨a, b, c⟩; rcases e with ⟨a', b', c'⟩; simp at hse ⊢; omega
  rw [ec]
  cases noc with
  | noc0 =>
    simp only [hops] at h
    rw [show (dev.legs s.dev Noc.noc0 s e).length = 0 ↔
      (e.col - s.col) % (dev.cols : Int) = 0 ∧ (e.row - s.row) % (dev.rows : Int) = 0 by omega,
      emod_sub_eq_zero he.2.2 hs.2.2, emod_sub_eq_zero he.2.1 hs.2.1]
    tauto
  | noc1 =>
    simp only [hops] at h
    rw [show (dev.legs s.dev Noc.noc1 s e).length = 0 ↔
      (s.col - e.col) % (dev.cols : Int) = 0 ∧ (s.row - e.row) % (dev.rows : Int) = 0 by omega,
      emod_sub_eq_zero hs.2.2 he.2.2, emod_sub_eq_zero hs.2.1 he.2.1]
    constructor
    · rintro ⟨a, b⟩; exact ⟨b.symm, a.symm⟩
    · rintro ⟨a, b⟩; exact ⟨b.symm, a.symm⟩

/-- C06.  The length of a unicast route is the torus distance in the NoC's directions and equals
the hop count used for write latency; it is at most rows + columns - 2; no link repeats. -/
theorem C06_route_length (dev : Device) (hdev : DeviceOk dev) (ord : List Int → List Int)
    (noc : Noc) (s e : Coord) (hs : IsCore dev s) (he : IsCore dev e) (hse : e.dev = s.dev) :
    ∃ ids, dev.route ord noc s (.unicast e) = .ok ids ∧ ids.Nodup ∧
      (ids.length : Int) = hops dev.rows dev.cols noc s e ∧
      (ids.length : Int) = dev.routeHops s.col s.row e.col e.row (some noc) ∧
      ids.length ≤ dev.rows + dev.cols - 2 := by
  have h := dev.legs_length s.dev noc s e hs.2
  have hc : (0 : Int) < dev.cols := by have := hdev.cols_pos; omega
  have hr : (0 : Int) < dev.rows := by have := hdev.rows_pos; omega
  refine ⟨_, dev.route_unicast_eq hdev ord noc s e hs he hse,
    dev.map_linkIdx_nodup _ (dev.legs_on _ _ _ _ hs.1 hs.2 he.2) (dev.legs_nodup _ _ _ _ hs.2), ?_, ?_, ?_⟩
  · simpa using h
  · rw [List.length_map, h]
    cases noc <;> simp [hops, routeHops, modulo_eq _ _ hdev.cols_pos, modulo_eq _ _ hdev.rows_pos]
  · rw [List.length_map]
    have h1 := Int.emod_lt_of_pos (e.col - s.col) hc
    have h2 := Int.emod_lt_of_pos (e.row - s.row) hr
    have h3 := Int.emod_lt_of_pos (s.col - e.col) hc
    have h4 := Int.emod_lt_of_pos (s.row - e.row) hr
    cases noc <;> simp only [hops] at h <;> omega

/-- The static hop count of the write-latency model is the route length on the created devices. -/
theorem C06_write_latency_hops (fp : FP) (name : String) (dev : Device)
    (h : createDeviceModel fp name = .ok dev) (sx sy dx dy : Int) (noc : Option Noc) :
    archHops dev.arch sx sy dx dy noc = dev.routeHops sx sy dx dy noc := by
  unfold createDeviceModel at h
  split_ifs at h <;> cases h <;> cases noc <;> rfl

/-- Any path on the links of one NoC is at least as long as the route: routes are shortest. -/
theorem C06_shortest (rows cols : Nat) (hr : 0 < rows) (hc : 0 < cols) (noc : Noc) (s e : Coord)
    (ls : List LinkAttr) (h : IsPath rows cols s ls e) (hn : ∀ l ∈ ls, l.type ∈ nocLinks noc) :
    hops rows cols noc s e ≤ ls.length := by
  -- count the links of each type
  have key : ∀ {s ls e}, IsPath rows cols s ls e → (∀ l ∈ ls, l.type ∈ nocLinks noc) →
      ∃ a b : Nat, a + b = ls.length ∧
      (match noc with
        | .noc0 => (e.col - s.col) % cols = a % (cols : Int) ∧ (e.row - s.row) % rows = b % (rows : Int)
        | .noc1 => (s.col - e.col) % cols = a % (cols : Int) ∧ (s.row - e.row) % rows = b % (rows : Int)) := by
    intro s ls e h
    induction h with
    | nil c => intro _; refine ⟨0, 0, rfl, ?_⟩; cases noc <;> simp
    | @cons l ls e hp ih =>
      intro hn
      obtain ⟨a, b, hab, hm⟩ := ih (fun x hx => hn x (by simp [hx]))
      have ht := hn l (by simp)
      cases noc with
      | noc0 =>
        simp only [nocLinks, List.mem_cons, List.not_mem_nil, or_false] at ht
        simp only at hm
        rcases ht with ht | ht
        · refine ⟨a + 1, b, by simp; omega, ?_⟩
          simp only [linkTarget, ht] at hm
          refine ⟨?_, hm.2⟩
          have := hm.1
          rw [Int.sub_emod_emod] at this
          rw [show e.col - l.coord.col = (e.col - (l.coord.col + 1)) + 1 by ring, Int.add_emod, this,
            ← Int.add_emod]; push_cast; rfl
        · refine ⟨a, b + 1, by simp; omega, ?_⟩
          simp only [linkTarget, ht] at hm
          refine ⟨hm.1, ?_⟩
          have := hm.2
          rw [Int.sub_emod_emod] at this
          rw [show e.row - l.coord.row = (e.row - (l.coord.row + 1)) + 1 by ring, Int.add_emod, this,
            ← Int.add_emod]; push_cast; rfl
      | noc1 =>
        simp only [nocLinks, List.mem_cons, List.not_mem_nil, or_false] at ht
        simp only at hm
        rcases ht with ht | ht
        · refine ⟨a, b + 1, by simp; omega, ?_⟩
          simp only [linkTarget, ht] at hm
          refine ⟨hm.1, ?_⟩
          have := hm.2
          rw [Int.emod_sub_emod] at this
          rw [show l.coord.row - e.row = (l.coord.row - 1 - e.row) + 1 by ring, Int.add_emod, this,
            ← Int.add_emod]; push_cast; rfl
        · refine ⟨a + 1, b, by simp; omega, ?_⟩
          simp only [linkTarget, ht] at hm
          refine ⟨?_, hm.2⟩
          have := hm.1
          rw [Int.emod_sub_emod] at this
          rw [show l.coord.col - e.col = (l.coord.col - 1 - e.col) + 1 by ring, Int.add_emod, this,
            ← Int.add_emod]; push_cast; rfl
  obtain ⟨a, b, hab, hm⟩ := key h hn
  have le : ∀ (k m : Nat), 0 < m → (k : Int) % m ≤ k := by
    intro k m _
    rw [← Int.natCast_mod]; exact_mod_cast Nat.mod_le k m
  have h1 := le a cols hc
  have h2 := le b rows hr
  cases noc <;> simp only [hops] at hm ⊢ <;> rw [hm.1, hm.2] <;> omega

/-- C05/C06, concrete case: wrap-around east, then south. -/
example : (wormhole .exact false 1).unicastRoute .noc0 ⟨0, 10, 9⟩ ⟨0, 0, 1⟩ =
    .ok [436, 400, 405, 445] := by decide +kernel

/-! ### C60: routing terminates exactly for destinations on the grid -/

/-- C60.  From a core of the grid, routing to a destination returns if the destination is on the
grid; if it is off the grid the loop runs forever (no number of iterations suffices). -/
theorem C60_route_terminates_iff (dev : Device) (hdev : DeviceOk dev) (noc : Noc) (s e : Coord)
    (hs : IsCore dev s) :
    (∃ fuel ids, dev.unicastLoop noc e.row e.col fuel s.row s.col = .ok ids) ↔
      (0 ≤ e.row ∧ e.row < dev.rows) ∧ (0 ≤ e.col ∧ e.col < dev.cols) := by
  constructor
  · rintro ⟨fuel, ids, h⟩
    by_contra hoff
    rw [dev.unicastLoop_off_grid hdev.ids hdev.chips_pos noc _ _ hoff fuel _ _ hs.2] at h
    cases h
  · intro he
    exact ⟨_, _, dev.unicastRoute_eq hdev.ids hdev.chips_pos noc s e hs.2 he⟩

/-- C60, the bound used by the model is not a restriction: with at least rows + columns
iterations the result no longer depends on the bound, so running out of it is non-termination. -/
theorem C60_fuel_adequate (dev : Device) (hdev : DeviceOk dev) (noc : Noc) (s e : Coord)
    (hs : IsCore dev s) (fuel : Nat) (hf : dev.rows + dev.cols ≤ fuel) :
    dev.unicastLoop noc e.row e.col fuel s.row s.col = dev.unicastRoute noc s e := by
  by_cases he : dev.OnG e.row e.col
  · have hc : (0 : Int) < dev.cols := by have := hdev.cols_pos; omega
    have hr : (0 : Int) < dev.rows := by have := hdev.rows_pos; omega
    rw [dev.unicastRoute_eq hdev.ids hdev.chips_pos noc s e hs.2 he]
    unfold legs
    cases noc with
    | noc0 =>
      have h1 := Int.emod_nonneg (e.col - s.col) (show (dev.cols : Int) ≠ 0 by omega)
      have h2 := Int.emod_nonneg (e.row - s.row) (show (dev.rows : Int) ≠ 0 by omega)
      have h3 := Int.emod_lt_of_pos (e.col - s.col) hc
      have h4 := Int.emod_lt_of_pos (e.row - s.row) hr
      exact dev.loop_noc0 hdev.ids hdev.chips_pos _ _ he _ _ _ _ _ hs.2 (by omega) (by omega) (by omega)
    | noc1 =>
      have h1 := Int.emod_nonneg (s.col - e.col) (show (dev.cols : Int) ≠ 0 by omega)
      have h2 := Int.emod_nonneg (s.row - e.row) (show (dev.rows : Int) ≠ 0 by omega)
      have h3 := Int.emod_lt_of_pos (s.col - e.col) hc
      have h4 := Int.emod_lt_of_pos (s.row - e.row) hr
      exact dev.loop_noc1 hdev.ids hdev.chips_pos _ _ he _ _ _ _ _ hs.2 (by omega) (by omega) (by omega)
  · rw [unicastRoute, dev.unicastLoop_off_grid hdev.ids hdev.chips_pos noc _ _ he _ _ _ hs.2,
      dev.unicastLoop_off_grid hdev.ids hdev.chips_pos noc _ _ he _ _ _ hs.2]

/-- C60, concrete non-terminating case. -/
example : (wormhole .exact false 1).unicastRoute .noc0 ⟨0, 1, 1⟩ ⟨0, 12, 1⟩ = .diverge := by
  decide +kernel

/-! ### C07: identifiers -/

/-- C07.  Link identifiers and link attributes are inverse to each other, exist exactly for the
cores of the device, and are the numbers 0 … n-1. -/
theorem C07_link_ids (dev : Device) (hdev : DeviceOk dev) :
    (∀ a i, dev.getLinkID a = .ok i ↔ dev.getLinkAttributes i = .ok a) ∧
    (∀ a, (∃ i, dev.getLinkID a = .ok i) ↔ IsCore dev a.coord) ∧
    (∀ i : Int, (∃ a, dev.getLinkAttributes i = .ok a) ↔
      0 ≤ i ∧ i < dev.chips * (dev.rows * (dev.cols * 4))) := by
  refine ⟨?_, ?_, ?_⟩
  · intro a i
    rw [dev.getLinkAttributes_eq]
    constructor
    · exact dev.getLinkID_ok hdev.ids
    · rintro ⟨h, rfl⟩; exact dev.getLinkID_eq hdev.ids a h
  · intro a
    constructor
    · rintro ⟨i, h⟩; exact (dev.getLinkID_ok hdev.ids h).1
    · intro h; exact ⟨_, dev.getLinkID_eq hdev.ids a h⟩
  · intro i
    constructor
    · rintro ⟨a, h⟩
      obtain ⟨h1, rfl⟩ := (dev.getLinkAttributes_eq _ _).mp h
      have := dev.linkIdx_lt a h1
      unfold nLinks at this
      exact ⟨by omega, by exact_mod_cast this⟩
    · rintro ⟨h1, h2⟩
      obtain ⟨n, rfl⟩ := Int.eq_ofNat_of_zero_le h1
      have hlt : n < dev.linkTable.length := by
        rw [dev.linkTable_length]; unfold nLinks; exact_mod_cast h2
      refine ⟨dev.linkTable[n], ?_⟩
      unfold getLinkAttributes
      rw [if_neg (by omega)]
      simp [hlt]

/-- C07 for NIUs. -/
theorem C07_niu_ids (dev : Device) (hdev : DeviceOk dev) :
    (∀ a i, dev.getNIUID a = .ok i ↔ dev.getNIUAttributes i = .ok a) ∧
    (∀ a, (∃ i, dev.getNIUID a = .ok i) ↔ IsCore dev a.coord) ∧
    (∀ i : Int, (∃ a, dev.getNIUAttributes i = .ok a) ↔
      0 ≤ i ∧ i < dev.chips * (dev.rows * (dev.cols * 4))) := by
  have hok : ∀ a i, dev.getNIUID a = .ok i → dev.On a.coord ∧ i = dev.niuIdx a := by
    intro a i h
    by_cases ho : dev.On a.coord
    · rw [dev.getNIUID_eq hdev.ids a ho] at h; exact ⟨ho, (Out.ok.inj h).symm⟩
    · rw [dev.getNIUID_off hdev.ids a ho] at h; cases h
  refine ⟨?_, ?_, ?_⟩
  · intro a i
    rw [dev.getNIUAttributes_eq]
    constructor
    · exact hok a i
    · rintro ⟨h, rfl⟩; exact dev.getNIUID_eq hdev.ids a h
  · intro a
    constructor
    · rintro ⟨i, h⟩; exact (hok a i h).1
    · intro h; exact ⟨_, dev.getNIUID_eq hdev.ids a h⟩
  · intro i
    constructor
    · rintro ⟨a, h⟩
      obtain ⟨h1, rfl⟩ := (dev.getNIUAttributes_eq _ _).mp h
      have := dev.niuIdx_lt a h1
      unfold nLinks at this
      exact ⟨by omega, by exact_mod_cast this⟩
    · rintro ⟨h1, h2⟩
      obtain ⟨n, rfl⟩ := Int.eq_ofNat_of_zero_le h1
      have hlt : n < dev.niuTable.length := by
        rw [dev.niuTable_length]; unfold nLinks; exact_mod_cast h2
      refine ⟨dev.niuTable[n], ?_⟩
      unfold getNIUAttributes
      rw [if_neg (by omega)]
      simp [hlt]

/-- C07.  All other numbers and attributes are refused with an error, on every device. -/
theorem C07_refused (dev : Device) (i : Int) (a : LinkAttr) (b : NIUAttr) :
    ((¬ ∃ x, dev.getLinkAttributes i = .ok x) → dev.getLinkAttributes i = .exc .undef) ∧
    ((¬ ∃ x, dev.getNIUAttributes i = .ok x) → dev.getNIUAttributes i = .exc .undef) ∧
    ((¬ ∃ x, dev.getLinkID a = .ok x) → dev.getLinkID a = .exc .undef) ∧
    ((¬ ∃ x, dev.getNIUID b = .ok x) → dev.getNIUID b = .exc .undef) := by
  refine ⟨fun h => ?_, fun h => ?_, fun h => ?_, fun h => ?_⟩
  · revert h
    unfold getLinkAttributes
    split
    · exact fun _ => rfl
    · split
      · exact fun h => absurd ⟨_, rfl⟩ h
      · exact fun _ => rfl
  · revert h
    unfold getNIUAttributes
    split
    · exact fun _ => rfl
    · split
      · exact fun h => absurd ⟨_, rfl⟩ h
      · exact fun _ => rfl
  · revert h
    unfold getLinkID
    split
    · exact fun h => absurd ⟨_, rfl⟩ h
    · exact fun _ => rfl
  · revert h
    unfold getNIUID
    split
    · exact fun h => absurd ⟨_, rfl⟩ h
    · exact fun _ => rfl

example : (wormhole .exact false 1).getLinkAttributes (-1) = .exc .undef ∧
    (wormhole .exact false 1).getLinkAttributes 480 = .exc .undef ∧
    (wormhole .exact false 1).getNIUID ⟨⟨0, 12, 0⟩, .noc0Src⟩ = .exc .undef := by decide +kernel

/-- C07, the limit: a Wormhole mesh of 69 chips would not fit the 16-bit identifiers. -/
example : ¬ DeviceOk (wormhole .exact true 69) := by
  intro h; have := h.ids; simp [wormhole] at this

example : (wormhole .exact true 2).getLinkID ⟨⟨1, 0, 0⟩, .noc0South⟩ = .ok 481 := by decide +kernel

/-! ### C08, C09: multicast routes -/

/-- The full claim of C08 for one device and NoC. -/
def C08_claim (dev : Device) (noc : Noc) : Prop :=
  ∀ (ord : List Int → List Int), (∀ l, (ord l).Perm l) → ∀ (s : Coord) (g : CoordGrid),
    IsCore dev s → IsCore dev g.lo → IsCore dev g.hi → g.lo.dev = s.dev → g.hi.dev = s.dev →
    g.lo.row ≤ g.hi.row → g.lo.col ≤ g.hi.col →
    ∃ ids ls, dev.route ord noc s (.mcast [g]) = .ok ids ∧ Denotes dev ids ls ∧
      ∀ c, InRect g c → ∃ p, IsPath dev.rows dev.cols s p c ∧ ∀ l ∈ p, l ∈ ls

theorem path_last {rows cols : Nat} {s e : Coord} {ls : List LinkAttr} (h : IsPath rows cols s ls e) :
    s = e ∨ ∃ l ∈ ls, linkTarget rows cols l = e := by
  induction h with
  | nil c => left; rfl
  | @cons l ls e hp ih =>
    right
    rcases ih with h | ⟨x, hx, h⟩
    · exact ⟨l, by simp, h⟩
    · exact ⟨x, by simp [hx], h⟩

/-- If no link of the route leads to a core, the core is not reached. -/
theorem not_reached (dev : Device) (hdev : DeviceOk dev) (noc : Noc) (s : Coord) (g : CoordGrid)
    (c : Coord)
    (hs : IsCore dev s) (hlo : IsCore dev g.lo) (hhi : IsCore dev g.hi) (h1 : g.lo.dev = s.dev)
    (h2 : g.hi.dev = s.dev) (h3 : g.lo.row ≤ g.hi.row) (h4 : g.lo.col ≤ g.hi.col) (hc : InRect g c)
    (hne : s ≠ c)
    (hall : ∀ d r k, farEdge noc g ⟨d, r, k⟩ → ∀ l ∈ dev.legs s.dev noc s ⟨0, r, k⟩,
      linkTarget dev.rows dev.cols l ≠ c) : ¬ C08_claim dev noc := by
  intro h
  obtain ⟨ids, ls, hr, hd, hp⟩ := h id (fun l => List.Perm.refl l) s g hs hlo hhi h1 h2 h3 h4
  obtain ⟨p, hpath, hsub⟩ := hp c hc
  rcases path_last hpath with h | ⟨l, hl, ht⟩
  · exact hne h
  · obtain ⟨i, hi, ha⟩ := (dev.denotes_mem hd l).mp (hsub l hl)
    obtain ⟨ids', hr', _, hm⟩ := dev.route_mcast_eq hdev id (fun l => List.Perm.refl l) noc s g hs
      hlo.2 hhi.2 h1
    rw [hr] at hr'
    rw [Out.ok.inj hr', hm] at hi
    obtain ⟨x, hx, hxg, hi⟩ := hi
    obtain ⟨l', hl', rfl⟩ := List.mem_map.mp hi
    have hll : l' = l := by
      obtain ⟨ho, he⟩ := (dev.getLinkAttributes_eq _ _).mp ha
      exact dev.linkIdx_inj (dev.legs_on _ _ _ _ hs.1 hs.2 hxg l' hl') ho (by exact_mod_cast he)
    subst hll
    rw [← dev.legs_dst_dev s.dev 0 noc s x] at hl'
    exact hall x.dev x.row x.col hx l' hl' ht

/-- C08 does not hold on NoC 1: the route goes west to the far column and stops there; the
columns left of it are never reached. -/
theorem C08_violated_noc1 (fp : FP) : ¬ C08_claim (wormhole fp false 1) .noc1 := by
  refine not_reached _ (wormhole_ok _ _ _ (by omega) (by omega) (by simp)) _ ⟨0, 5, 8⟩
    ⟨⟨0, 1, 1⟩, ⟨0, 3, 4⟩⟩ ⟨0, 1, 1⟩ ?_ ?_ ?_ rfl rfl (by decide) (by decide) ?_ (by decide) ?_
  · simp [IsCore, wormhole]
  · simp [IsCore, wormhole]
  · simp [IsCore, wormhole]
  · simp [InRect]
  · intro d r k hx
    obtain ⟨hk, h1, h2⟩ := hx
    simp only at hk h1 h2
    subst hk
    show ∀ l ∈ (wormhole .exact false 1).legs 0 .noc1 ⟨0, 5, 8⟩ ⟨0, r, 4⟩, linkTarget 12 10 l ≠ ⟨0, 1, 1⟩
    interval_cases r <;> decide +kernel

/-- C08 does not hold on NoC 0 either when the source row is inside of the rectangle. -/
theorem C08_violated_noc0 (fp : FP) : ¬ C08_claim (wormhole fp false 1) .noc0 := by
  refine not_reached _ (wormhole_ok _ _ _ (by omega) (by omega) (by simp)) _ ⟨0, 5, 1⟩
    ⟨⟨0, 2, 3⟩, ⟨0, 8, 4⟩⟩ ⟨0, 2, 3⟩ ?_ ?_ ?_ rfl rfl (by decide) (by decide) ?_ (by decide) ?_
  · simp [IsCore, wormhole]
  · simp [IsCore, wormhole]
  · simp [IsCore, wormhole]
  · simp [InRect]
  · intro d r k hx
    obtain ⟨hk, h1, h2⟩ := hx
    simp only at hk h1 h2
    subst hk
    show ∀ l ∈ (wormhole .exact false 1).legs 0 .noc0 ⟨0, 5, 1⟩ ⟨0, 8, k⟩, linkTarget 12 10 l ≠ ⟨0, 2, 3⟩
    interval_cases k <;> decide +kernel

/-- C08 (missing: NoC 1, and sources whose row lies strictly inside or at the end of the
rectangle's rows).  On NoC 0 with the source row at or above the first row, or below the last
row, every core of the rectangle is reached over links of the route. -/
theorem C08_partial (dev : Device) (hdev : DeviceOk dev) (ord : List Int → List Int)
    (hord : ∀ l, (ord l).Perm l) (s : Coord) (g : CoordGrid) (hs : IsCore dev s)
    (hlo : IsCore dev g.lo) (hhi : IsCore dev g.hi) (h1 : g.lo.dev = s.dev)
    (hrow : s.row ≤ g.lo.row ∨ g.hi.row < s.row) :
    ∃ ids ls, dev.route ord .noc0 s (.mcast [g]) = .ok ids ∧ Denotes dev ids ls ∧
      ∀ c, InRect g c → ∃ p, IsPath dev.rows dev.cols s p c ∧ ∀ l ∈ p, l ∈ ls := by
  obtain ⟨ids, hr, hn, hm⟩ := dev.route_mcast_eq hdev ord hord .noc0 s g hs hlo.2 hhi.2 h1
  obtain ⟨ls, hls⟩ := dev.denotes_exists ids (by
    intro i hi
    rw [hm] at hi
    obtain ⟨x, _, hxg, hi⟩ := hi
    obtain ⟨l, hl, rfl⟩ := List.mem_map.mp hi
    exact ⟨l, dev.legs_on _ _ _ _ hs.1 hs.2 hxg l hl, rfl⟩)
  refine ⟨ids, ls, hr, hls, ?_⟩
  intro c hc
  obtain ⟨hcd, hcr, hcc⟩ := hc
  have hl1 := hlo.2.1; have hl2 := hlo.2.2; have hh1 := hhi.2.1; have hh2 := hhi.2.2
  have hs1 := hs.2.1
  have hcg : dev.OnG c.row c.col := ⟨by omega, by omega⟩
  refine ⟨dev.legs s.dev .noc0 s c, dev.legs_path _ _ _ _ rfl (by rw [hcd, h1]) hs.2 hcg, ?_⟩
  intro l hl
  have hxg : dev.OnG g.hi.row c.col := ⟨hhi.2.1, hcg.2⟩
  have hsub := dev.legs_noc0_prefix s.dev s c ⟨s.dev, g.hi.row, c.col⟩ rfl (by
    have e : ∀ x : Int, 0 ≤ x → x < dev.rows → (x - s.row) % (dev.rows : Int) =
        if s.row ≤ x then x - s.row else x - s.row + dev.rows := by
      intro x hx0 hx1
      split_ifs with hle
      · exact Int.emod_eq_of_lt (by omega) (by omega)
      · rw [← Int.add_emod_right]; exact Int.emod_eq_of_lt (by omega) (by omega)
    rw [e c.row hcg.1.1 hcg.1.2, e g.hi.row hh1.1 hh1.2]
    split_ifs <;> omega) l hl
  rw [dev.denotes_mem hls]
  refine ⟨dev.linkIdx l, ?_, (dev.getLinkAttributes_eq _ _).mpr
    ⟨dev.legs_on _ _ _ _ hs.1 hs.2 hcg l hl, rfl⟩⟩
  rw [hm]
  exact ⟨⟨s.dev, g.hi.row, c.col⟩, ⟨rfl, hcc⟩, hxg, List.mem_map.mpr ⟨l, hsub, rfl⟩⟩

/-- C09.  The links of a multicast route are exactly those of the unicast routes to the far edge
of the rectangle, each once. -/
theorem C09_multicast_union (dev : Device) (hdev : DeviceOk dev) (ord : List Int → List Int)
    (hord : ∀ l, (ord l).Perm l) (noc : Noc) (s : Coord) (g : CoordGrid) (hs : IsCore dev s)
    (hlo : IsCore dev g.lo)
    (hhi : (0 ≤ g.hi.row ∧ g.hi.row < dev.rows) ∧ (0 ≤ g.hi.col ∧ g.hi.col < dev.cols)) (h1 : g.lo.dev = s.dev) :
    ∃ ids, dev.route ord noc s (.mcast [g]) = .ok ids ∧ ids.Nodup ∧
      ∀ i, i ∈ ids ↔ ∃ x, x.dev = s.dev ∧ farEdge noc g x ∧
        ∃ u, dev.route ord noc s (.unicast x) = .ok u ∧ i ∈ u := by
  obtain ⟨ids, hr, hn, hm⟩ := dev.route_mcast_eq hdev ord hord noc s g hs hlo.2 hhi h1
  refine ⟨ids, hr, hn, ?_⟩
  intro i
  rw [hm]
  have hgrid : ∀ x, farEdge noc g x → dev.OnG x.row x.col := by
    intro x hx
    have hl1 := hlo.2.1; have hl2 := hlo.2.2; have hh1 := hhi.1; have hh2 := hhi.2
    cases noc <;> simp only [farEdge] at hx <;> unfold OnG <;> omega
  constructor
  · rintro ⟨x, hx, hxg, hi⟩
    refine ⟨⟨s.dev, x.row, x.col⟩, rfl, by cases noc <;> exact hx, _,
      dev.route_unicast_eq hdev ord noc s ⟨s.dev, x.row, x.col⟩ hs ⟨hs.1, hxg⟩ rfl, ?_⟩
    rw [dev.legs_dst_dev]; exact hi
  · rintro ⟨x, hxd, hx, u, hu, hi⟩
    have hxg := hgrid x hx
    rw [dev.route_unicast_eq hdev ord noc s x hs ⟨by rw [hxd]; exact hs.1, hxg⟩ hxd] at hu
    refine ⟨x, hx, hxg, ?_⟩
    rw [Out.ok.inj hu]; exact hi

/-- C09: any other number of rectangles is refused. -/
theorem C09_one_rectangle (dev : Device) (ord : List Int → List Int) (noc : Noc) (s : Coord)
    (gs : List CoordGrid) (h : gs.length ≠ 1) : dev.route ord noc s (.mcast gs) = .exc .undef := by
  unfold route
  cases hm : dev.multichip <;> simp [routeSingle, multicastRoute, Dest.deviceIDs, h]

example : (wormhole .exact false 1).route id .noc0 ⟨0, 1, 1⟩ (.mcast [⟨⟨0, 1, 2⟩, ⟨0, 2, 3⟩⟩]) =
    .ok [44, 49, 48, 53] := by decide +kernel

/-! ### C10: multichip routes -/

/-- C10.  Whenever a multichip route exists, it is the single-chip route with every link moved to
the source's chip. -/
theorem C10_multichip_route (dev : Device) (hdev : DeviceOk dev) (hm : dev.multichip = true)
    (ord : List Int → List Int) (hord : ∀ l, (ord l).Perm l) (noc : Noc) (s : Coord) (d : Dest)
    (ids : List Int) (h : dev.route ord noc s d = .ok ids) :
    ∃ ids0, dev.base.route ord noc s d = .ok ids0 ∧
      List.Forall₂ (fun i i0 => ∃ l0, dev.base.getLinkAttributes i0 = .ok l0 ∧
        dev.getLinkAttributes i = .ok ⟨⟨s.dev, l0.coord.row, l0.coord.col⟩, l0.type⟩) ids ids0 := by
  unfold route at h
  rw [if_pos hm] at h
  obtain ⟨_, _, h'⟩ := Out.bind_eq_ok.mp h
  obtain ⟨_, _, h''⟩ := Out.bind_eq_ok.mp h'
  clear h h'
  obtain ⟨ids0, h0, h⟩ := Out.bind_eq_ok.mp h''
  clear h''
  refine ⟨ids0, by simpa [route, base] using h0, ?_⟩
  have hids := dev.base.routeSingle_ids (dev.base_nLinks hdev) ord hord noc s d ids0 h0
  clear h0
  unfold changeRouteDeviceID at h
  induction ids0 generalizing ids with
  | nil => cases h; exact .nil
  | cons i0 ids0 ih =>
    rw [Out.mapM_cons] at h
    obtain ⟨i, h1, h⟩ := Out.bind_eq_ok.mp h
    obtain ⟨is, h2, h⟩ := Out.bind_eq_ok.mp h
    cases h
    refine .cons ?_ (ih is h2 (fun x hx => hids x (by simp [hx])))
    obtain ⟨l, ho, hz, rfl⟩ := hids _ List.mem_cons_self
    have hon : dev.On l.coord := ⟨⟨by rw [hz], by rw [hz]; exact_mod_cast hdev.chips_pos⟩, ho.2⟩
    have ha : dev.getLinkAttributes (dev.base.linkIdx l) = .ok l :=
      (dev.getLinkAttributes_eq _ _).mpr ⟨hon, rfl⟩
    rw [ha, Out.bind_ok] at h1
    refine ⟨l, (dev.base.getLinkAttributes_eq _ _).mpr ⟨ho, rfl⟩, ?_⟩
    exact (dev.getLinkAttributes_eq _ _).mpr (dev.getLinkID_ok hdev.ids h1)

/-- C10: a destination on another chip is refused with an error. -/
theorem C10_other_chip_refused (dev : Device) (hm : dev.multichip = true) (ord : List Int → List Int)
    (noc : Noc) (s : Coord) (d : Dest) (c : Int) (hd : d.deviceIDs = [c]) (hc : c ≠ s.dev) :
    dev.route ord noc s d = .exc .undef := by
  unfold route
  rw [if_pos hm, hd]
  simp [hc]

/-- C10, concrete cases: the same transfer on chip 1 of an N300 and a refused one. -/
example : (wormhole .exact true 2).route id .noc0 ⟨1, 1, 1⟩ (.unicast ⟨1, 2, 2⟩) = .ok [524, 529] ∧
    (wormhole .exact true 2).route id .noc0 ⟨1, 1, 1⟩ (.unicast ⟨0, 2, 2⟩) = .exc .undef := by
  decide +kernel

/-! ### C11: multicast enumeration -/

/-- C11.  Iterating over a multicast destination of well-formed rectangles ends and visits the
cores rectangle by rectangle in row-major order. -/
theorem C11_enumeration (gs : List CoordGrid) (hok : ∀ g ∈ gs, RectOk g) :
    mcastCoords gs = .ok (gs.flatMap cells) ∧
    (∀ g ∈ gs, (cells g).Nodup ∧ ∀ c, c ∈ cells g ↔ InRect g c) ∧
    ((gs.flatMap cells).length < 2^64 → mcastGridSize gs = (gs.flatMap cells).length) :=
  ⟨mcastCoords_eq gs hok, fun g _ => ⟨cells_nodup g, fun _ => mem_cells⟩,
    fun h => gridSize_eq gs hok (by simpa using h)⟩

example : mcastCoords [⟨⟨0, 1, 2⟩, ⟨0, 2, 3⟩⟩, ⟨⟨0, 5, 5⟩, ⟨0, 5, 5⟩⟩] =
    .ok [⟨0, 1, 2⟩, ⟨0, 1, 3⟩, ⟨0, 2, 2⟩, ⟨0, 2, 3⟩, ⟨0, 5, 5⟩] := by decide +kernel

/-! ### C53, C54: helpers -/

theorem mem_insertSorted {α : Type} (le : α → α → Bool) (a x : α) (l : List α) :
    x ∈ insertSorted le a l ↔ x = a ∨ x ∈ l := by
  induction l with
  | nil => simp [insertSorted]
  | cons b l ih =>
    unfold insertSorted
    split_ifs
    · simp
    · simp only [List.mem_cons, ih]; tauto

theorem mem_sortBy {α : Type} (le : α → α → Bool) (x : α) (l : List α) :
    x ∈ sortBy le l ↔ x ∈ l := by
  induction l with
  | nil => simp [sortBy]
  | cons a l ih => rw [sortBy, mem_insertSorted, ih, List.mem_cons]

theorem sorted_insertSorted (a : Int) (l : List Int) (h : l.Pairwise (· ≤ ·)) :
    (insertSorted (fun a b => decide (a ≤ b)) a l).Pairwise (· ≤ ·) := by
  induction l with
  | nil => simp [insertSorted]
  | cons b l ih =>
    unfold insertSorted
    rw [List.pairwise_cons] at h
    split_ifs with hab
    · rw [List.pairwise_cons]
      have hab' : a ≤ b := by simpa using hab
      refine ⟨?_, List.pairwise_cons.mpr h⟩
      intro x hx
      rcases List.mem_cons.mp hx with rfl | hx
      · exact hab'
      · exact le_trans hab' (h.1 x hx)
    · have hab' : b ≤ a := by simp at hab; omega
      rw [List.pairwise_cons]
      refine ⟨?_, ih h.2⟩
      intro x hx
      rw [mem_insertSorted] at hx
      rcases hx with rfl | hx
      · exact hab'
      · exact h.1 x hx

theorem sorted_sortBy (l : List Int) : (sortBy (fun a b => decide (a ≤ b)) l).Pairwise (· ≤ ·) := by
  induction l with
  | nil => simp [sortBy]
  | cons a l ih => exact sorted_insertSorted a _ ih

theorem uniqueAdj_spec (l : List Int) (h : l.Pairwise (· ≤ ·)) :
    (uniqueAdj l).Pairwise (· < ·) ∧ ∀ x, x ∈ uniqueAdj l ↔ x ∈ l := by
  induction l with
  | nil => simp [uniqueAdj]
  | cons a l ih =>
    cases l with
    | nil => simp [uniqueAdj]
    | cons b l =>
      rw [List.pairwise_cons] at h
      obtain ⟨h1, h2⟩ := ih h.2
      unfold uniqueAdj
      split_ifs with hab
      · subst hab
        refine ⟨h1, ?_⟩
        intro x; rw [h2]; simp
      · refine ⟨?_, ?_⟩
        · rw [List.pairwise_cons]
          refine ⟨?_, h1⟩
          intro x hx
          rw [h2] at hx
          have hab' : a < b := lt_of_le_of_ne (h.1 b (by simp)) hab
          rcases List.mem_cons.mp hx with rfl | hx
          · exact hab'
          · exact lt_of_lt_of_le hab' ((List.pairwise_cons.mp h.2).1 x hx)
        · intro x; simp only [List.mem_cons, h2]

/-- C53.  The result is strictly increasing and has exactly the elements of the input. -/
theorem C53_uniquify (l : List Int) :
    (uniquify l).Pairwise (· < ·) ∧ ∀ x, x ∈ uniquify l ↔ x ∈ l := by
  obtain ⟨h1, h2⟩ := uniqueAdj_spec _ (sorted_sortBy l)
  exact ⟨h1, fun x => by rw [uniquify, h2, mem_sortBy]⟩

example : uniquify [3, 1, 3, 2, 1] = [1, 2, 3] := by decide

/-- C54.  Both helpers compute the residue in `[0, range)`. -/
theorem C54_modulus (n : Int) (r : Nat) (h : 0 < r) :
    (0 ≤ wrapToRange n r ∧ wrapToRange n r < r ∧ (r : Int) ∣ wrapToRange n r - n) ∧
    (0 ≤ modulo n r ∧ modulo n r < r ∧ (r : Int) ∣ modulo n r - n) := by
  rw [wrapToRange_eq n r h, modulo_eq n r h]
  have h1 := Int.emod_nonneg n (show (r : Int) ≠ 0 by omega)
  have h2 := Int.emod_lt_of_pos n (show (0 : Int) < r by omega)
  have h3 : (r : Int) ∣ n % r - n := by
    rw [Int.emod_def]; exact ⟨-(n / r), by ring⟩
  exact ⟨⟨h1, h2, h3⟩, h1, h2, h3⟩

example : wrapToRange (-1) 12 = 11 ∧ modulo (-25) 12 = 11 := by decide

/-! ### C55: device names -/

/-- The documented device names with architecture, chip count and whether the multichip model is
used. -/
def documentedDevices : List (String × Arch × Nat × Bool) :=
  [("wormhole_b0", .wormholeB0, 1, false), ("N150", .wormholeB0, 1, false),
   ("N300", .wormholeB0, 2, true), ("T3K", .wormholeB0, 8, true), ("TG", .wormholeB0, 36, true),
   ("GALAXY", .wormholeB0, 32, true), ("blackhole", .blackhole, 1, false),
   ("P100", .blackhole, 1, false), ("P150", .blackhole, 1, false)]

/-- C55, devices.  Creation succeeds exactly for the documented names, with the documented
architecture and chip count; every other string raises the device-model error. -/
theorem C55_device_names (fp : FP) (name : String) :
    (∀ dev, createDeviceModel fp name = .ok dev →
      (name, dev.arch, dev.chips, dev.multichip) ∈ documentedDevices) ∧
    (name ∈ documentedDevices.map (·.1) → ∃ dev, createDeviceModel fp name = .ok dev) ∧
    (name ∉ documentedDevices.map (·.1) → createDeviceModel fp name = .exc .deviceModelInitFailed) := by
  refine ⟨?_, ?_, ?_⟩
  · intro dev h
    unfold createDeviceModel at h
    split_ifs at h with h1 h2 h3 h4 h5 h6 h7
    · rw [← Out.ok.inj h]; rcases h1 with rfl | rfl <;> simp [documentedDevices, wormhole]
    · rw [← Out.ok.inj h]; subst h2; simp [documentedDevices, wormhole]
    · rw [← Out.ok.inj h]; subst h3; simp [documentedDevices, wormhole]
    · rw [← Out.ok.inj h]; rcases h4 with rfl | rfl <;> simp [documentedDevices, blackhole]
    · rw [← Out.ok.inj h]; subst h5; simp [documentedDevices, blackhole]
    · rw [← Out.ok.inj h]; subst h6; simp [documentedDevices, wormhole]
    · rw [← Out.ok.inj h]; subst h7; simp [documentedDevices, wormhole]
  · intro h
    simp only [documentedDevices, List.map_cons, List.map_nil, List.mem_cons, List.not_mem_nil,
      or_false] at h
    rcases h with rfl | rfl | rfl | rfl | rfl | rfl | rfl | rfl | rfl <;> exact ⟨_, rfl⟩
  · intro h
    simp only [documentedDevices, List.map_cons, List.map_nil, List.mem_cons, List.not_mem_nil,
      or_false, not_or] at h
    obtain ⟨a, b, c, d, e, f, g, i, j⟩ := h
    simp [createDeviceModel, a, b, c, d, e, f, g, i, j]

example : "T3K" ∈ documentedDevices.map (·.1) ∧ "t3k" ∉ documentedDevices.map (·.1) := by decide

end NPE.Props
