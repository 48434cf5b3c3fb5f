import Verif.Proofs.Device
import Verif.Spec.Route
import Mathlib.Data.List.Nodup
import Mathlib.Data.List.Forall2

/- Helper lemmas about unicast routes. -/

namespace NPE
open Spec

theorem wrapToRange_eq (n : Int) (r : Nat) (h : 0 < r) : wrapToRange n r = n % r := by
  unfold wrapToRange
  have hr : (0 : Int) < r := by exact_mod_cast h
  have h1 : n.tmod r + r ≥ 0 := by
    have := Int.lt_tmod_of_pos n hr
    omega
  rw [Int.tmod_eq_emod_of_nonneg h1, Int.add_emod_right, Int.tmod_def]
  rw [Int.sub_mul_emod_self_left]

theorem modulo_eq (n : Int) (r : Nat) (h : 0 < r) : modulo n r = n % r := by
  have hr : (0 : Int) < r := by exact_mod_cast h
  have h2 := Int.lt_tmod_of_pos n hr
  have h3 := Int.tmod_lt_of_pos n hr
  have h4 : n.tmod r % r = n % r := by rw [Int.tmod_def, Int.sub_mul_emod_self_left]
  unfold modulo
  simp only
  split_ifs with hc
  · rw [← h4, ← Int.add_emod_right, Int.emod_eq_of_lt (by omega) (by omega)]
  · rw [← h4, Int.emod_eq_of_lt (by omega) h3]

/-- One step up towards a target modulo `m` decreases the distance by one. -/
theorem emod_up {e c : Int} {m k : Nat} (_he : 0 ≤ e ∧ e < m) (hc : 0 ≤ c ∧ c < m)
    (h : (e - c) % m = ((k + 1 : Nat) : Int)) :
    (e - (c + 1) % m) % m = k ∧ (0 ≤ (c + 1) % m ∧ (c + 1) % m < m) := by
  have hm : (0 : Int) < m := by omega
  have hb : 0 ≤ (c + 1) % m ∧ (c + 1) % m < m :=
    ⟨Int.emod_nonneg _ (by omega), Int.emod_lt_of_pos _ hm⟩
  refine ⟨?_, hb⟩
  have hk : ((k + 1 : Nat) : Int) < m := by rw [← h]; exact Int.emod_lt_of_pos _ hm
  rw [Int.sub_emod, Int.emod_emod_of_dvd _ (dvd_refl _), ← Int.sub_emod,
    show e - (c + 1) = (e - c) - 1 by ring, Int.sub_emod, h, Int.sub_emod_emod,
    Int.emod_eq_of_lt (by omega) (by omega)]
  omega

/-- One step down towards a target modulo `m` decreases the distance by one. -/
theorem emod_down {e c : Int} {m k : Nat} (_he : 0 ≤ e ∧ e < m) (hc : 0 ≤ c ∧ c < m)
    (h : (c - e) % m = ((k + 1 : Nat) : Int)) :
    ((c - 1) % m - e) % m = k ∧ (0 ≤ (c - 1) % m ∧ (c - 1) % m < m) := by
  have hm : (0 : Int) < m := by omega
  have hb : 0 ≤ (c - 1) % m ∧ (c - 1) % m < m :=
    ⟨Int.emod_nonneg _ (by omega), Int.emod_lt_of_pos _ hm⟩
  refine ⟨?_, hb⟩
  have hk : ((k + 1 : Nat) : Int) < m := by rw [← h]; exact Int.emod_lt_of_pos _ hm
  rw [Int.emod_sub_emod, show (c - 1) - e = (c - e) - 1 by ring, Int.sub_emod, h,
    Int.sub_emod_emod, Int.emod_eq_of_lt (by omega) (by omega)]
  omega

/-- On-grid numbers at distance 0 modulo `m` are equal. -/
theorem emod_sub_eq_zero {e c : Int} {m : Nat} (he : 0 ≤ e ∧ e < m) (hc : 0 ≤ c ∧ c < m) :
    (e - c) % m = 0 ↔ c = e := by
  constructor
  · intro h
    have h2 : e % m = c % m := Int.emod_eq_emod_iff_emod_sub_eq_zero.mpr h
    rw [Int.emod_eq_of_lt he.1 he.2, Int.emod_eq_of_lt hc.1 hc.2] at h2
    exact h2.symm
  · rintro rfl; simp

namespace Device
variable (dev : Device)

/-- `n` east links starting at a core. -/
def eastLeg (d row col : Int) (n : Nat) : List LinkAttr :=
  (List.range n).map fun (k : Nat) => ⟨⟨d, row, (col + k) % dev.cols⟩, .noc0East⟩
/-- `n` south links starting at a core. -/
def southLeg (d row col : Int) (n : Nat) : List LinkAttr :=
  (List.range n).map fun (k : Nat) => ⟨⟨d, (row + k) % dev.rows, col⟩, .noc0South⟩
/-- `n` north links starting at a core. -/
def northLeg (d row col : Int) (n : Nat) : List LinkAttr :=
  (List.range n).map fun (k : Nat) => ⟨⟨d, (row - k) % dev.rows, col⟩, .noc1North⟩
/-- `n` west links starting at a core. -/
def westLeg (d row col : Int) (n : Nat) : List LinkAttr :=
  (List.range n).map fun (k : Nat) => ⟨⟨d, row, (col - k) % dev.cols⟩, .noc1West⟩

theorem eastLeg_succ (d row col : Int) (n : Nat) (hc : 0 ≤ col ∧ col < dev.cols) :
    dev.eastLeg d row col (n + 1) =
      ⟨⟨d, row, col⟩, .noc0East⟩ :: dev.eastLeg d row ((col + 1) % dev.cols) n := by
  simp only [eastLeg, List.range_succ_eq_map, List.map_cons, List.map_map]
  congr 1
  · simp [Int.emod_eq_of_lt hc.1 hc.2]
  · apply List.map_congr_left; intro k _
    simp only [Function.comp, Int.emod_add_emod, LinkAttr.mk.injEq, Coord.mk.injEq, and_true,
      true_and]
    congr 1; push_cast; ring

theorem southLeg_succ (d row col : Int) (n : Nat) (hc : 0 ≤ row ∧ row < dev.rows) :
    dev.southLeg d row col (n + 1) =
      ⟨⟨d, row, col⟩, .noc0South⟩ :: dev.southLeg d ((row + 1) % dev.rows) col n := by
  simp only [southLeg, List.range_succ_eq_map, List.map_cons, List.map_map]
  congr 1
  · simp [Int.emod_eq_of_lt hc.1 hc.2]
  · apply List.map_congr_left; intro k _
    simp only [Function.comp, Int.emod_add_emod, LinkAttr.mk.injEq, Coord.mk.injEq, and_true,
      true_and]
    congr 1; push_cast; ring

theorem northLeg_succ (d row col : Int) (n : Nat) (hc : 0 ≤ row ∧ row < dev.rows) :
    dev.northLeg d row col (n + 1) =
      ⟨⟨d, row, col⟩, .noc1North⟩ :: dev.northLeg d ((row - 1) % dev.rows) col n := by
  simp only [northLeg, List.range_succ_eq_map, List.map_cons, List.map_map]
  congr 1
  · simp [Int.emod_eq_of_lt hc.1 hc.2]
  · apply List.map_congr_left; intro k _
    simp only [Function.comp, Int.emod_sub_emod, LinkAttr.mk.injEq, Coord.mk.injEq, and_true,
      true_and]
    congr 1; push_cast; ring

theorem westLeg_succ (d row col : Int) (n : Nat) (hc : 0 ≤ col ∧ col < dev.cols) :
    dev.westLeg d row col (n + 1) =
      ⟨⟨d, row, col⟩, .noc1West⟩ :: dev.westLeg d row ((col - 1) % dev.cols) n := by
  simp only [westLeg, List.range_succ_eq_map, List.map_cons, List.map_map]
  congr 1
  · simp [Int.emod_eq_of_lt hc.1 hc.2]
  · apply List.map_congr_left; intro k _
    simp only [Function.comp, Int.emod_sub_emod, LinkAttr.mk.injEq, Coord.mk.injEq, and_true,
      true_and]
    congr 1; push_cast; ring

/-- The links of a unicast route. -/
def legs (d : Int) (noc : Noc) (s e : Coord) : List LinkAttr :=
  match noc with
  | .noc0 => dev.eastLeg d s.row s.col ((e.col - s.col) % dev.cols).toNat ++
      dev.southLeg d s.row e.col ((e.row - s.row) % dev.rows).toNat
  | .noc1 => dev.northLeg d s.row s.col ((s.row - e.row) % dev.rows).toNat ++
      dev.westLeg d e.row s.col ((s.col - e.col) % dev.cols).toNat

/-- A core position on the grid. -/
def OnG (row col : Int) : Prop := (0 ≤ row ∧ row < dev.rows) ∧ (0 ≤ col ∧ col < dev.cols)

section loop
variable (hl : dev.nLinks ≤ 32768) (hchips : 0 < dev.chips)
include hl hchips

theorem getLinkID_grid (row col : Int) (t : LinkType) (h : dev.OnG row col) :
    dev.getLinkID ⟨⟨0, row, col⟩, t⟩ = .ok (dev.linkIdx ⟨⟨0, row, col⟩, t⟩) := by
  apply dev.getLinkID_eq hl
  exact ⟨⟨le_refl _, by simpa using hchips⟩, h.1, h.2⟩

theorem loop_south (er ec : Int) (he : dev.OnG er ec) : ∀ (n fuel : Nat) (row : Int),
    0 ≤ row ∧ row < dev.rows → (er - row) % dev.rows = n → n < fuel →
    dev.unicastLoop .noc0 er ec fuel row ec =
      .ok ((dev.southLeg 0 row ec n).map fun l => (dev.linkIdx l : Int)) := by
  intro n
  induction n with
  | zero =>
    intro fuel row hr h hf
    obtain ⟨f, rfl⟩ : ∃ f, fuel = f + 1 := ⟨fuel - 1, by omega⟩
    have : row = er := (emod_sub_eq_zero he.1 hr).mp (by simpa using h)
    subst this
    simp [unicastLoop, southLeg]
  | succ n ih =>
    intro fuel row hr h hf
    obtain ⟨f, rfl⟩ : ∃ f, fuel = f + 1 := ⟨fuel - 1, by omega⟩
    have hne : row ≠ er := by rintro rfl; simp at h; omega
    obtain ⟨h1, h2⟩ := emod_up he.1 hr h
    rw [unicastLoop]
    simp only [ne_eq, not_true_eq_false, if_false, hne, not_false_eq_true, if_true]
    rw [dev.getLinkID_grid hl hchips _ _ _ ⟨hr, he.2⟩]
    rw [wrapToRange_eq _ _ (by omega)]
    rw [Out.bind_ok, ih f _ h2 h1 (by omega)]
    rw [Out.bind_ok, dev.southLeg_succ _ _ _ _ hr]
    simp

theorem loop_noc0 (er ec : Int) (he : dev.OnG er ec) : ∀ (n m fuel : Nat) (row col : Int),
    dev.OnG row col → (ec - col) % dev.cols = n → (er - row) % dev.rows = m → n + m < fuel →
    dev.unicastLoop .noc0 er ec fuel row col =
      .ok ((dev.eastLeg 0 row col n ++ dev.southLeg 0 row ec m).map fun l => (dev.linkIdx l : Int)) := by
  intro n
  induction n with
  | zero =>
    intro m fuel row col hrc h hm hf
    have : col = ec := (emod_sub_eq_zero he.2 hrc.2).mp (by simpa using h)
    subst this
    rw [dev.loop_south hl hchips er col he m fuel row hrc.1 hm (by omega)]
    simp [eastLeg]
  | succ n ih =>
    intro m fuel row col hrc h hm hf
    obtain ⟨f, rfl⟩ : ∃ f, fuel = f + 1 := ⟨fuel - 1, by omega⟩
    have hne : col ≠ ec := by rintro rfl; simp at h; omega
    obtain ⟨h1, h2⟩ := emod_up he.2 hrc.2 h
    rw [unicastLoop]
    simp only [ne_eq, hne, not_false_eq_true, if_true]
    rw [dev.getLinkID_grid hl hchips _ _ _ hrc, wrapToRange_eq _ _ (by have := hrc.2; omega),
      Out.bind_ok, ih m f row _ ⟨hrc.1, h2⟩ h1 hm (by omega), Out.bind_ok,
      dev.eastLeg_succ _ _ _ _ hrc.2]
    simp

theorem loop_west (er ec : Int) (he : dev.OnG er ec) : ∀ (n fuel : Nat) (col : Int),
    0 ≤ col ∧ col < dev.cols → (col - ec) % dev.cols = n → n < fuel →
    dev.unicastLoop .noc1 er ec fuel er col =
      .ok ((dev.westLeg 0 er col n).map fun l => (dev.linkIdx l : Int)) := by
  intro n
  induction n with
  | zero =>
    intro fuel col hr h hf
    obtain ⟨f, rfl⟩ : ∃ f, fuel = f + 1 := ⟨fuel - 1, by omega⟩
    have : ec = col := (emod_sub_eq_zero hr he.2).mp (by simpa using h)
    subst this
    simp [unicastLoop, westLeg]
  | succ n ih =>
    intro fuel col hr h hf
    obtain ⟨f, rfl⟩ : ∃ f, fuel = f + 1 := ⟨fuel - 1, by omega⟩
    have hne : col ≠ ec := by rintro rfl; simp at h; omega
    obtain ⟨h1, h2⟩ := emod_down he.2 hr h
    rw [unicastLoop]
    simp only [ne_eq, not_true_eq_false, if_false, hne, not_false_eq_true, if_true]
    rw [dev.getLinkID_grid hl hchips _ _ _ ⟨he.1, hr⟩, wrapToRange_eq _ _ (by omega),
      Out.bind_ok, ih f _ h2 h1 (by omega), Out.bind_ok, dev.westLeg_succ _ _ _ _ hr]
    simp

theorem loop_noc1 (er ec : Int) (he : dev.OnG er ec) : ∀ (n m fuel : Nat) (row col : Int),
    dev.OnG row col → (row - er) % dev.rows = n → (col - ec) % dev.cols = m → n + m < fuel →
    dev.unicastLoop .noc1 er ec fuel row col =
      .ok ((dev.northLeg 0 row col n ++ dev.westLeg 0 er col m).map fun l => (dev.linkIdx l : Int)) := by
  intro n
  induction n with
  | zero =>
    intro m fuel row col hrc h hm hf
    have : er = row := (emod_sub_eq_zero hrc.1 he.1).mp (by simpa using h)
    subst this
    rw [dev.loop_west hl hchips er ec he m fuel col hrc.2 hm (by omega)]
    simp [northLeg]
  | succ n ih =>
    intro m fuel row col hrc h hm hf
    obtain ⟨f, rfl⟩ : ∃ f, fuel = f + 1 := ⟨fuel - 1, by omega⟩
    have hne : row ≠ er := by rintro rfl; simp at h; omega
    obtain ⟨h1, h2⟩ := emod_down he.1 hrc.1 h
    rw [unicastLoop]
    simp only [ne_eq, hne, not_false_eq_true, if_true]
    rw [dev.getLinkID_grid hl hchips _ _ _ hrc, wrapToRange_eq _ _ (by have := hrc.1; omega),
      Out.bind_ok, ih m f _ col ⟨h2, hrc.2⟩ h1 hm (by omega), Out.bind_ok,
      dev.northLeg_succ _ _ _ _ hrc.1]
    simp

/-- Unicast routes in closed form. -/
theorem unicastRoute_eq (noc : Noc) (s e : Coord) (hs : dev.OnG s.row s.col)
    (he : dev.OnG e.row e.col) :
    dev.unicastRoute noc s e = .ok ((dev.legs 0 noc s e).map fun l => (dev.linkIdx l : Int)) := by
  have hc : (0 : Int) < dev.cols := by have := hs.2; omega
  have hr : (0 : Int) < dev.rows := by have := hs.1; omega
  unfold unicastRoute legs
  cases noc with
  | noc0 =>
    have h1 := Int.emod_nonneg (e.col - s.col) (show (dev.cols : Int) ≠ 0 by omega)
    have h2 := Int.emod_nonneg (e.row - s.row) (show (dev.rows : Int) ≠ 0 by omega)
    have h3 := Int.emod_lt_of_pos (e.col - s.col) hc
    have h4 := Int.emod_lt_of_pos (e.row - s.row) hr
    exact dev.loop_noc0 hl hchips _ _ he _ _ _ _ _ hs (by omega) (by omega) (by omega)
  | noc1 =>
    have h1 := Int.emod_nonneg (s.col - e.col) (show (dev.cols : Int) ≠ 0 by omega)
    have h2 := Int.emod_nonneg (s.row - e.row) (show (dev.rows : Int) ≠ 0 by omega)
    have h3 := Int.emod_lt_of_pos (s.col - e.col) hc
    have h4 := Int.emod_lt_of_pos (s.row - e.row) hr
    exact dev.loop_noc1 hl hchips _ _ he _ _ _ _ _ hs (by omega) (by omega) (by omega)

end loop

/-- All links of a route lie on the grid. -/
theorem legs_on (d : Int) (noc : Noc) (s e : Coord) (hd : 0 ≤ d ∧ d < dev.chips)
    (hs : dev.OnG s.row s.col) (he : dev.OnG e.row e.col) :
    ∀ l ∈ dev.legs d noc s e, dev.On l.coord := by
  have hc : (0 : Int) < dev.cols := by have := hs.2; omega
  have hr : (0 : Int) < dev.rows := by have := hs.1; omega
  have hmc : ∀ x : Int, 0 ≤ x % (dev.cols : Int) ∧ x % (dev.cols : Int) < dev.cols :=
    fun x => ⟨Int.emod_nonneg _ (by omega), Int.emod_lt_of_pos _ hc⟩
  have hmr : ∀ x : Int, 0 ≤ x % (dev.rows : Int) ∧ x % (dev.rows : Int) < dev.rows :=
    fun x => ⟨Int.emod_nonneg _ (by omega), Int.emod_lt_of_pos _ hr⟩
  intro l hl
  cases noc <;> simp only [legs, eastLeg, southLeg, northLeg, westLeg, List.mem_append,
    List.mem_map, List.mem_range] at hl <;> rcases hl with ⟨k, _, rfl⟩ | ⟨k, _, rfl⟩
  · exact ⟨hd, hs.1, hmc _⟩
  · exact ⟨hd, hmr _, he.2⟩
  · exact ⟨hd, hmr _, hs.2⟩
  · exact ⟨hd, he.1, hmc _⟩

/-- The route of every device model in closed form. -/
theorem route_unicast_eq (hdev : DeviceOk dev) (ord : List Int → List Int) (noc : Noc)
    (s e : Coord) (hs : IsCore dev s) (he : IsCore dev e) (hse : e.dev = s.dev) :
    dev.route ord noc s (.unicast e) =
      .ok ((dev.legs s.dev noc s e).map fun l => (dev.linkIdx l : Int)) := by
  unfold route
  cases hm : dev.multichip with
  | false =>
    have h1 := hdev.single hm
    have h0 : s.dev = 0 := by have := hs.1; rw [h1] at this; omega
    simp only [Bool.false_eq_true, if_false, routeSingle]
    rw [dev.unicastRoute_eq hdev.ids hdev.chips_pos noc s e hs.2 he.2, h0]
  | true =>
    simp only [if_true, Dest.deviceIDs, List.length_cons, List.length_nil, List.head?_cons, hse,
      decide_true, Out.assert_true, Out.bind_ok, routeSingle, zero_add]
    have hb : dev.base.nLinks ≤ 32768 := by
      have h1 := hdev.ids
      have h2 : 1 * (dev.rows * (dev.cols * 4)) ≤ dev.chips * (dev.rows * (dev.cols * 4)) :=
        Nat.mul_le_mul_right _ hdev.chips_pos
      show 1 * (dev.rows * (dev.cols * 4)) ≤ 32768
      omega
    rw [dev.base.unicastRoute_eq hb (by simp [base]) noc s e hs.2 he.2, Out.bind_ok]
    -- relabelling
    have hrel : ∀ ls : List LinkAttr, (∀ l ∈ ls, dev.On l.coord) →
        dev.changeRouteDeviceID (ls.map fun l => (dev.linkIdx l : Int)) s.dev =
          .ok (ls.map fun l => (dev.linkIdx ⟨⟨s.dev, l.coord.row, l.coord.col⟩, l.type⟩ : Int)) := by
      intro ls
      induction ls with
      | nil => intro _; rfl
      | cons l ls ih =>
        intro h
        have hl := h l (by simp)
        have ih' := ih (fun x hx => h x (by simp [hx]))
        unfold changeRouteDeviceID at ih' ⊢
        rw [List.map_cons, Out.mapM_cons, (dev.getLinkAttributes_eq _ l).mpr ⟨hl, rfl⟩, Out.bind_ok,
          dev.getLinkID_eq hdev.ids ⟨⟨s.dev, l.coord.row, l.coord.col⟩, l.type⟩ ⟨hs.1, hl.2⟩, Out.bind_ok, ih', Out.bind_ok]
        rfl
    have := hrel (dev.legs 0 noc s e)
      (dev.legs_on 0 noc s e ⟨le_refl _, by exact_mod_cast hdev.chips_pos⟩ hs.2 he.2)
    have e1 : dev.base.legs 0 noc s e = dev.legs 0 noc s e := rfl
    have e2 : ∀ l, dev.base.linkIdx l = dev.linkIdx l := fun _ => rfl
    simp only [e1, e2]
    rw [this]
    congr 1
    cases noc <;> simp [legs, eastLeg, southLeg, northLeg, westLeg, List.map_map, Function.comp_def]

theorem eastLeg_path (d row col : Int) : ∀ (n : Nat) (ls : List LinkAttr) (e : Coord),
    0 ≤ col ∧ col < dev.cols →
    IsPath dev.rows dev.cols ⟨d, row, (col + n) % dev.cols⟩ ls e →
    IsPath dev.rows dev.cols ⟨d, row, col⟩ (dev.eastLeg d row col n ++ ls) e := by
  intro n
  induction n generalizing col with
  | zero =>
    intro ls e hc h
    simpa [eastLeg, Int.emod_eq_of_lt hc.1 hc.2] using h
  | succ n ih =>
    intro ls e hc h
    rw [dev.eastLeg_succ _ _ _ _ hc, List.cons_append]
    refine IsPath.cons (l := ⟨⟨d, row, col⟩, .noc0East⟩) ?_
    apply ih
    · exact ⟨Int.emod_nonneg _ (by omega), Int.emod_lt_of_pos _ (by omega)⟩
    · rw [Int.emod_add_emod]
      convert h using 3
      push_cast; ring

theorem southLeg_path (d row col : Int) : ∀ (n : Nat) (ls : List LinkAttr) (e : Coord),
    0 ≤ row ∧ row < dev.rows →
    IsPath dev.rows dev.cols ⟨d, (row + n) % dev.rows, col⟩ ls e →
    IsPath dev.rows dev.cols ⟨d, row, col⟩ (dev.southLeg d row col n ++ ls) e := by
  intro n
  induction n generalizing row with
  | zero =>
    intro ls e hc h
    simpa [southLeg, Int.emod_eq_of_lt hc.1 hc.2] using h
  | succ n ih =>
    intro ls e hc h
    rw [dev.southLeg_succ _ _ _ _ hc, List.cons_append]
    refine IsPath.cons (l := ⟨⟨d, row, col⟩, .noc0South⟩) ?_
    apply ih
    · exact ⟨Int.emod_nonneg _ (by omega), Int.emod_lt_of_pos _ (by omega)⟩
    · rw [Int.emod_add_emod]
      convert h using 3
      push_cast; ring

theorem northLeg_path (d row col : Int) : ∀ (n : Nat) (ls : List LinkAttr) (e : Coord),
    0 ≤ row ∧ row < dev.rows →
    IsPath dev.rows dev.cols ⟨d, (row - n) % dev.rows, col⟩ ls e →
    IsPath dev.rows dev.cols ⟨d, row, col⟩ (dev.northLeg d row col n ++ ls) e := by
  intro n
  induction n generalizing row with
  | zero =>
    intro ls e hc h
    simpa [northLeg, Int.emod_eq_of_lt hc.1 hc.2] using h
  | succ n ih =>
    intro ls e hc h
    rw [dev.northLeg_succ _ _ _ _ hc, List.cons_append]
    refine IsPath.cons (l := ⟨⟨d, row, col⟩, .noc1North⟩) ?_
    apply ih
    · exact ⟨Int.emod_nonneg _ (by omega), Int.emod_lt_of_pos _ (by omega)⟩
    · rw [Int.emod_sub_emod]
      convert h using 3
      push_cast; ring

theorem westLeg_path (d row col : Int) : ∀ (n : Nat) (ls : List LinkAttr) (e : Coord),
    0 ≤ col ∧ col < dev.cols →
    IsPath dev.rows dev.cols ⟨d, row, (col - n) % dev.cols⟩ ls e →
    IsPath dev.rows dev.cols ⟨d, row, col⟩ (dev.westLeg d row col n ++ ls) e := by
  intro n
  induction n generalizing col with
  | zero =>
    intro ls e hc h
    simpa [westLeg, Int.emod_eq_of_lt hc.1 hc.2] using h
  | succ n ih =>
    intro ls e hc h
    rw [dev.westLeg_succ _ _ _ _ hc, List.cons_append]
    refine IsPath.cons (l := ⟨⟨d, row, col⟩, .noc1West⟩) ?_
    apply ih
    · exact ⟨Int.emod_nonneg _ (by omega), Int.emod_lt_of_pos _ (by omega)⟩
    · rw [Int.emod_sub_emod]
      convert h using 3
      push_cast; ring

/-- Going the modular distance up arrives. -/
theorem arrive_up {e c : Int} {m : Nat} (he : 0 ≤ e ∧ e < m) :
    (c + (((e - c) % m).toNat : Int)) % m = e := by
  rw [Int.toNat_of_nonneg (Int.emod_nonneg _ (by omega)), Int.add_emod_emod,
    show c + (e - c) = e by ring, Int.emod_eq_of_lt he.1 he.2]

theorem arrive_down {e c : Int} {m : Nat} (he : 0 ≤ e ∧ e < m) :
    (c - (((c - e) % m).toNat : Int)) % m = e := by
  rw [Int.toNat_of_nonneg (Int.emod_nonneg _ (by omega)), Int.sub_emod_emod,
    show c - (c - e) = e by ring, Int.emod_eq_of_lt he.1 he.2]

theorem legs_path (d : Int) (noc : Noc) (s e : Coord) (hsd : s.dev = d) (hed : e.dev = d)
    (hs : dev.OnG s.row s.col) (he : dev.OnG e.row e.col) :
    IsPath dev.rows dev.cols s (dev.legs d noc s e) e := by
  obtain ⟨sd, sr, sc⟩ := s
  obtain ⟨ed, er, ec⟩ := e
  simp only at hsd hed hs he
  subst hsd; subst hed
  cases noc with
  | noc0 =>
    simp only [legs]
    apply dev.eastLeg_path _ _ _ _ _ _ hs.2
    rw [arrive_up he.2]
    have := dev.southLeg_path ed sr ec ((er - sr) % dev.rows).toNat [] ⟨ed, er, ec⟩ hs.1
      (by rw [arrive_up he.1]; exact .nil _)
    simpa using this
  | noc1 =>
    simp only [legs]
    apply dev.northLeg_path _ _ _ _ _ _ hs.1
    rw [arrive_down he.1]
    have := dev.westLeg_path ed er sc ((sc - ec) % dev.cols).toNat [] ⟨ed, er, ec⟩ hs.2
      (by rw [arrive_down he.2]; exact .nil _)
    simpa using this

theorem legs_ordered (d : Int) (noc : Noc) (s e : Coord) : DimOrdered noc (dev.legs d noc s e) := by
  cases noc
  · exact ⟨_, _, rfl, by simp [eastLeg], by simp [southLeg]⟩
  · exact ⟨_, _, rfl, by simp [northLeg], by simp [westLeg]⟩

theorem legs_length (d : Int) (noc : Noc) (s e : Coord) (hs : dev.OnG s.row s.col) :
    ((dev.legs d noc s e).length : Int) = hops dev.rows dev.cols noc s e := by
  have hc : (dev.cols : Int) ≠ 0 := by have := hs.2; omega
  have hr : (dev.rows : Int) ≠ 0 := by have := hs.1; omega
  have h1 := Int.emod_nonneg (e.col - s.col) hc
  have h2 := Int.emod_nonneg (e.row - s.row) hr
  have h3 := Int.emod_nonneg (s.col - e.col) hc
  have h4 := Int.emod_nonneg (s.row - e.row) hr
  cases noc <;> simp [legs, hops, eastLeg, southLeg, northLeg, westLeg] <;> omega

theorem add_emod_inj {c : Int} {m : Nat} {i j : Nat} (hi : i < m) (hj : j < m)
    (h : (c + i) % m = (c + j) % m) : i = j := by
  have h2 : ((i : Int)) % m = j % m := by
    have := congrArg (fun x => (x - c) % (m : Int)) h
    simpa [Int.emod_sub_emod] using this
  rw [Int.emod_eq_of_lt (by omega) (by omega), Int.emod_eq_of_lt (by omega) (by omega)] at h2
  omega

theorem sub_emod_inj {c : Int} {m : Nat} {i j : Nat} (hi : i < m) (hj : j < m)
    (h : (c - i) % m = (c - j) % m) : i = j := by
  have h2 : ((i : Int)) % m = j % m := by
    have := congrArg (fun x => (c - x) % (m : Int)) h
    simpa [Int.sub_emod_emod] using this
  rw [Int.emod_eq_of_lt (by omega) (by omega), Int.emod_eq_of_lt (by omega) (by omega)] at h2
  omega

theorem legs_nodup (d : Int) (noc : Noc) (s e : Coord) (hs : dev.OnG s.row s.col) :
    (dev.legs d noc s e).Nodup := by
  have hc : (0 : Int) < dev.cols := by have := hs.2; omega
  have hr : (0 : Int) < dev.rows := by have := hs.1; omega
  have lt : ∀ (x : Int) (m : Nat), (0 : Int) < m → (x % m).toNat < m + 1 := by
    intro x m hm
    have := Int.emod_lt_of_pos x hm
    omega
  have bnd : ∀ (x : Int) (m : Nat), (0 : Int) < m → ∀ k, k ∈ List.range (x % m).toNat → k < m := by
    intro x m hm k hk
    have := Int.emod_lt_of_pos x hm
    simp only [List.mem_range] at hk
    omega
  cases noc with
  | noc0 =>
    simp only [legs]
    apply List.Nodup.append
    · apply List.Nodup.map_on _ List.nodup_range
      intro i hi j hj h
      simp only [LinkAttr.mk.injEq, Coord.mk.injEq] at h
      exact add_emod_inj (bnd _ _ hc _ hi) (bnd _ _ hc _ hj) (by tauto)
    · apply List.Nodup.map_on _ List.nodup_range
      intro i hi j hj h
      simp only [LinkAttr.mk.injEq, Coord.mk.injEq] at h
      exact add_emod_inj (bnd _ _ hr _ hi) (bnd _ _ hr _ hj) (by tauto)
    · intro l h1 h2
      simp only [eastLeg, southLeg, List.mem_map] at h1 h2
      obtain ⟨_, _, rfl⟩ := h1
      obtain ⟨_, _, h⟩ := h2
      simp at h
  | noc1 =>
    simp only [legs]
    apply List.Nodup.append
    · apply List.Nodup.map_on _ List.nodup_range
      intro i hi j hj h
      simp only [LinkAttr.mk.injEq, Coord.mk.injEq] at h
      exact sub_emod_inj (bnd _ _ hr _ hi) (bnd _ _ hr _ hj) (by tauto)
    · apply List.Nodup.map_on _ List.nodup_range
      intro i hi j hj h
      simp only [LinkAttr.mk.injEq, Coord.mk.injEq] at h
      exact sub_emod_inj (bnd _ _ hc _ hi) (bnd _ _ hc _ hj) (by tauto)
    · intro l h1 h2
      simp only [northLeg, westLeg, List.mem_map] at h1 h2
      obtain ⟨_, _, rfl⟩ := h1
      obtain ⟨_, _, h⟩ := h2
      simp at h

/-- Identifiers of on-grid links denote them. -/
theorem denotes_map (ls : List LinkAttr) (h : ∀ l ∈ ls, dev.On l.coord) :
    Denotes dev (ls.map fun l => (dev.linkIdx l : Int)) ls := by
  unfold Denotes
  induction ls with
  | nil => exact .nil
  | cons l ls ih =>
    exact .cons ((dev.getLinkAttributes_eq _ l).mpr ⟨h l (by simp), rfl⟩)
      (ih fun x hx => h x (by simp [hx]))

theorem map_linkIdx_nodup (ls : List LinkAttr) (h : ∀ l ∈ ls, dev.On l.coord) (hn : ls.Nodup) :
    (ls.map fun l => (dev.linkIdx l : Int)).Nodup := by
  apply List.Nodup.map_on _ hn
  intro a ha b hb hab
  exact dev.linkIdx_inj (h a ha) (h b hb) (by exact_mod_cast hab)

/-- The loop never ends when the destination is off the grid (whatever the bound on the number
of iterations). -/
theorem unicastLoop_off_grid (hl : dev.nLinks ≤ 32768) (hchips : 0 < dev.chips) (noc : Noc)
    (er ec : Int) (hoff : ¬ dev.OnG er ec) : ∀ (fuel : Nat) (row col : Int), dev.OnG row col →
    dev.unicastLoop noc er ec fuel row col = .diverge := by
  intro fuel
  induction fuel with
  | zero => intros; rfl
  | succ f ih =>
    intro row col h
    have hc : (0 : Int) < dev.cols := by have := h.2; omega
    have hr : (0 : Int) < dev.rows := by have := h.1; omega
    have hmc : ∀ x : Int, 0 ≤ x % (dev.cols : Int) ∧ x % (dev.cols : Int) < dev.cols :=
      fun x => ⟨Int.emod_nonneg _ (by omega), Int.emod_lt_of_pos _ hc⟩
    have hmr : ∀ x : Int, 0 ≤ x % (dev.rows : Int) ∧ x % (dev.rows : Int) < dev.rows :=
      fun x => ⟨Int.emod_nonneg _ (by omega), Int.emod_lt_of_pos _ hr⟩
    have hne : ¬ (row = er ∧ col = ec) := by rintro ⟨rfl, rfl⟩; exact hoff h
    have hid := fun t => dev.getLinkID_grid hl hchips row col t h
    unfold unicastLoop
    cases noc with
    | noc0 =>
      simp only [wrapToRange_eq _ _ (show 0 < dev.cols by omega),
        wrapToRange_eq _ _ (show 0 < dev.rows by omega), hid, Out.bind_ok]
      split_ifs with h1 h2
      · rw [ih _ _ ⟨h.1, hmc _⟩]; rfl
      · rw [ih _ _ ⟨hmr _, h.2⟩]; rfl
      · exact absurd ⟨not_not.mp h2, not_not.mp h1⟩ hne
    | noc1 =>
      simp only [wrapToRange_eq _ _ (show 0 < dev.cols by omega),
        wrapToRange_eq _ _ (show 0 < dev.rows by omega), hid, Out.bind_ok]
      split_ifs with h1 h2
      · rw [ih _ _ ⟨hmr _, h.2⟩]; rfl
      · rw [ih _ _ ⟨h.1, hmc _⟩]; rfl
      · exact absurd ⟨not_not.mp h1, not_not.mp h2⟩ hne

end Device
end NPE
