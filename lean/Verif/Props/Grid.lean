import Verif.Proofs.Grid
import Verif.Props.Layout

/-
C127: the grids of include/grid.hpp.
-/

namespace NPE.Props

open NPE.Spec.Grid

/-- **C127.** Whatever a program does with a new grid of two dimensions, in either kind of build: if it
stays within the bounds, every read returns the value of the last write to the same row and column, or of a
later reset, or the first value; and going through the grid meets the values row by row. -/
theorem C127_plane {α : Type} (b : Build) {rows cols : Nat} (h : rows * cols < 2 ^ 64) (v : α)
    (l : List (Act (Nat × Nat) α)) (hl : ∀ a ∈ l, ∀ k, a.place = some k → k.1 < rows ∧ k.2 < cols) :
    ∃ g, (Grid2.make rows cols v).uses b l = .ok (answers (fun _ => v) l, g) ∧ g.size = g.data.length ∧
      g.data = (List.range rows).flatMap fun r => (List.range cols).map fun c => holds (fun _ => v) l (r, c) := by
  obtain ⟨g, e, H⟩ := uses2_holds b h l _ _ (holds2_make h v) hl
  refine ⟨g, e, ?_, H.order⟩
  unfold Grid2.size
  rw [H.len, H.hrows, H.hcols, Nat.mod_eq_of_lt h]

/-- **C127**, in three dimensions. -/
theorem C127_box {α : Type} (b : Build) {rows cols items : Nat} (h : rows * cols * items < 2 ^ 64) (v : α)
    (l : List (Act (Nat × Nat × Nat) α))
    (hl : ∀ a ∈ l, ∀ k, a.place = some k → k.1 < rows ∧ k.2.1 < cols ∧ k.2.2 < items) :
    ∃ g, (Grid3.make rows cols items v).uses b l = .ok (answers (fun _ => v) l, g) ∧ g.size = g.data.length := by
  obtain ⟨g, e, H⟩ := uses3_holds b h l _ _ (holds3_make h v) hl
  refine ⟨g, e, ?_⟩
  unfold Grid3.size
  rw [H.len, H.hrows, H.hcols, H.hitems, Nat.mod_eq_of_lt h]

/-- A program with two writes, a read before, between and after them, and a reset. -/
def gridActs : List (Act (Nat × Nat) Nat) :=
  [.write (1, 2) 7, .read (1, 2), .read (2, 1), .write (1, 2) 8, .write (2, 1) 9, .read (1, 2), .read (2, 1), .reset 3,
    .write (0, 0) 5, .read (1, 2), .read (0, 0)]

example : answers (fun _ => 0) gridActs = [7, 0, 8, 9, 3, 5] := by decide +kernel

example : ∃ g, (Grid2.make 3 4 0).uses .debug gridActs = .ok ([7, 0, 8, 9, 3, 5], g) ∧
    g.data = [5, 3, 3, 3, 3, 3, 3, 3, 3, 3, 3, 3] := by
  obtain ⟨g, e, _, e'⟩ := C127_plane .debug (rows := 3) (cols := 4) (by decide) 0 gridActs (by decide +kernel)
  refine ⟨g, e, e'.trans ?_⟩
  decide +kernel

example : ∃ g, (Grid3.make 2 3 4 'a').uses .release [.write (1, 2, 3) 'b', .write (1, 2, 0) 'c', .read (1, 2, 3),
    .read (0, 2, 3), .read (1, 2, 0)] = .ok (['b', 'a', 'c'], g) := by
  obtain ⟨g, e, _⟩ := C127_box .release (rows := 2) (cols := 3) (items := 4) (by decide) 'a'
    [.write (1, 2, 3) 'b', .write (1, 2, 0) 'c', .read (1, 2, 3), .read (0, 2, 3), .read (1, 2, 0)] (by decide +kernel)
  exact ⟨g, e⟩

/-- **C127, outside of the bounds.** A debug build ends the process.  A release build does not: with a
column that is too large, it reads the place further on in the grid, in a following row, and only beyond the
last row is the behaviour undefined. -/
theorem C127_outside {α : Type} {rows cols : Nat} (h : rows * cols < 2 ^ 64) (v : α) (l : List (Act (Nat × Nat) α))
    (hl : ∀ a ∈ l, ∀ k, a.place = some k → k.1 < rows ∧ k.2 < cols) {r c : Nat} (hrc : ¬ (r < rows ∧ c < cols))
    (hw : r * cols + c < 2 ^ 64) :
    (∀ as g, (Grid2.make rows cols v).uses .debug l = .ok (as, g) → g.read .debug r c = .exit) ∧
    (∀ as g, (Grid2.make rows cols v).uses .release l = .ok (as, g) → g.read .release r c =
      if r + c / cols < rows ∧ 0 < cols then .ok (holds (fun _ => v) l (r + c / cols, c % cols)) else .ub) := by
  constructor
  · intro as g e
    obtain ⟨g', e', H⟩ := uses2_holds .debug h l _ _ (holds2_make h v) hl
    have : g' = g := by have := Out.ok.inj (e'.symm.trans e); exact (Prod.mk.inj this).2
    subst this
    unfold Grid2.read Grid2.inBounds
    rw [H.hrows, H.hcols, if_pos]
    refine ⟨rfl, ?_⟩
    rw [Bool.and_eq_false_iff, decide_eq_false_iff_not, decide_eq_false_iff_not]
    exact Classical.or_iff_not_imp_left.mpr fun h1 h2 => hrc ⟨Classical.not_not.mp h1, h2⟩
  · intro as g e
    obtain ⟨g', e', H⟩ := uses2_holds .release h l _ _ (holds2_make h v) hl
    have : g' = g := by have := Out.ok.inj (e'.symm.trans e); exact (Prod.mk.inj this).2
    subst this
    unfold Grid2.read Grid2.index
    rw [if_neg (by simp), H.hcols, Nat.mod_eq_of_lt hw]
    by_cases hp : 0 < cols
    · have e1 : r * cols + c = (r + c / cols) * cols + c % cols := by
        have := Nat.div_add_mod c cols
        rw [Nat.add_mul, Nat.mul_comm (c / cols)]
        omega
      by_cases hr : r + c / cols < rows
      · rw [if_pos ⟨hr, hp⟩, e1]
        have := H.flat.val (r + c / cols, c % cols) ⟨hr, Nat.mod_lt _ hp⟩
        simp only at this
        rw [this]
      · rw [if_neg (fun x => hr x.1), List.getElem?_eq_none]
        rw [H.len, e1]
        exact Nat.le_trans (Nat.mul_le_mul_right _ (Nat.le_of_not_lt hr)) (Nat.le_add_right _ _)
    · have h0 : cols = 0 := by omega
      rw [if_neg (fun x => hp x.2), List.getElem?_eq_none]
      rw [H.len, h0]
      omega

example : ((Grid2.make 3 4 'a').uses .release [.write (2, 1) 'b', .read (1, 5)]).bind (fun x => .ok x.1) = .ok ['b'] := by
  decide +kernel

/-- **C127, huge grids (violated).** The number of places is computed with 64 bits: a grid of `2 ^ 32` rows
and columns has no places at all, so that even the first is outside of the vector. -/
theorem C127_huge {α : Type} (v : α) : (Grid2.make (2 ^ 32) (2 ^ 32) v).inBounds 0 0 = true ∧
    (Grid2.make (2 ^ 32) (2 ^ 32) v).size = 0 ∧ (Grid2.make (2 ^ 32) (2 ^ 32) v).read .release 0 0 = .ub ∧
    (Grid2.make (2 ^ 32) (2 ^ 32) v).read .debug 0 0 = .ub := by
  have e : Grid2.make (2 ^ 32) (2 ^ 32) v = ⟨[], 2 ^ 32, 2 ^ 32⟩ := by
    unfold Grid2.make
    have : (2 ^ 32 * 2 ^ 32 % 2 ^ 64 : Nat) = 0 := by decide
    rw [this]
    rfl
  rw [e]
  refine ⟨by simp [Grid2.inBounds], ?_, by simp [Grid2.read], by simp [Grid2.read, Grid2.inBounds]⟩
  show 2 ^ 32 * 2 ^ 32 % 2 ^ 64 = 0
  decide

/-- **C127, core types.** Whatever the order in which the constructor of a device goes through its table of
core types, reading the grid it fills gives what the model of the device says about the core — also for
coordinates outside of the device, of any 16-bit row and column: negative ones wrap around in `size_t` and
come back in the sum. -/
theorem C127_cores (dev : Device) (hR : dev.rows ≤ 2 ^ 15) (hC : dev.cols ≤ 2 ^ 15) (es : List (Coord × CoreType))
    (hes : ∀ e ∈ es, (0 ≤ e.1.row ∧ e.1.row < dev.rows) ∧ (0 ≤ e.1.col ∧ e.1.col < dev.cols) ∧
      e.2 = dev.coreTable e.1.row.toNat e.1.col.toNat)
    (hall : ∀ r c : Nat, r < dev.rows → c < dev.cols → ∃ e ∈ es, e.1.row = r ∧ e.1.col = c) :
    ∃ g, fillCores .release dev.rows dev.cols es = .ok g ∧
      ∀ c : Coord, -2 ^ 15 ≤ c.row ∧ c.row < 2 ^ 15 → -2 ^ 15 ≤ c.col ∧ c.col < 2 ^ 15 →
        g.read .release (sizeT c.row) (sizeT c.col) = dev.getCoreType c := by
  have hm : dev.rows * dev.cols ≤ 2 ^ 15 * 2 ^ 15 := Nat.mul_le_mul hR hC
  have h : dev.rows * dev.cols < 2 ^ 64 := by omega
  obtain ⟨g, e, f, H, hf⟩ := fillCores_holds .release h dev.coreTable es _ _ (holds2_make h .undef) hes (by omega) (by omega)
  refine ⟨g, e, fun c hr hc => ?_⟩
  have key : (sizeT c.row * dev.cols + sizeT c.col) % 2 ^ 64 = sizeT (c.row * dev.cols + c.col) := by
    unfold sizeT
    have h1 : (((c.row % 2 ^ 64).toNat * dev.cols + (c.col % 2 ^ 64).toNat : Nat) : Int) =
        c.row % 2 ^ 64 * dev.cols + c.col % 2 ^ 64 := by
      have a1 : 0 ≤ c.row % 2 ^ 64 := Int.emod_nonneg _ (by decide)
      have a2 : 0 ≤ c.col % 2 ^ 64 := Int.emod_nonneg _ (by decide)
      rw [Int.natCast_add, Int.natCast_mul, Int.toNat_of_nonneg a1, Int.toNat_of_nonneg a2]
    have h2 : ((((c.row % 2 ^ 64).toNat * dev.cols + (c.col % 2 ^ 64).toNat) % 2 ^ 64 : Nat) : Int) =
        (c.row * dev.cols + c.col) % 2 ^ 64 := by
      rw [Int.natCast_mod, h1]
      push_cast
      rw [Int.add_emod, Int.mul_emod, Int.emod_emod_of_dvd _ (dvd_refl _), Int.emod_emod_of_dvd _ (dvd_refl _),
        ← Int.mul_emod, ← Int.add_emod]
    omega
  have hb : c.row * dev.cols + c.col ≤ 2 ^ 15 * 2 ^ 15 + 2 ^ 15 ∧ -(2 ^ 15 * 2 ^ 15 + 2 ^ 15) ≤ c.row * dev.cols + c.col := by
    have : c.row * dev.cols ≤ 2 ^ 15 * 2 ^ 15 := by nlinarith
    have : -(2 ^ 15 * 2 ^ 15) ≤ c.row * dev.cols := by nlinarith
    omega
  unfold Grid2.read Grid2.index Device.getCoreType
  rw [if_neg (by simp), H.hcols, key]
  generalize hi : c.row * dev.cols + c.col = i at *
  by_cases hin : 0 ≤ i ∧ i < dev.rows * dev.cols
  · have es' : sizeT i = i.toNat := by
      unfold sizeT
      rw [Int.emod_eq_of_lt hin.1 (by omega)]
    have hp : 0 < dev.cols := by
      rcases Nat.eq_zero_or_pos dev.cols with h0 | h0
      · rw [h0] at hin; omega
      · exact h0
    have hlt : i.toNat < dev.rows * dev.cols := by
      have := hin.2
      have e' : ((dev.rows * dev.cols : Nat) : Int) = dev.rows * dev.cols := Int.natCast_mul _ _
      omega
    have hr' : i.toNat / dev.cols < dev.rows := (Nat.div_lt_iff_lt_mul hp).mpr hlt
    have hc' : i.toNat % dev.cols < dev.cols := Nat.mod_lt _ hp
    have e2 : i.toNat / dev.cols * dev.cols + i.toNat % dev.cols = i.toNat := by
      rw [Nat.mul_comm]; exact Nat.div_add_mod _ _
    have hv := H.flat.val (i.toNat / dev.cols, i.toNat % dev.cols) ⟨hr', hc'⟩
    simp only [e2] at hv
    obtain ⟨x, hx, x1, x2⟩ := hall _ _ hr' hc'
    rw [es', hv]
    simp only [hin, and_self, if_true]
    rw [hf _ (Or.inl ⟨x, hx, by rw [x1]; rfl, by rw [x2]; rfl⟩)]
  · have : g.data[sizeT i]? = none := by
      rw [List.getElem?_eq_none]
      rw [H.len]
      unfold sizeT
      have e' : ((dev.rows * dev.cols : Nat) : Int) = dev.rows * dev.cols := Int.natCast_mul _ _
      rcases Classical.not_and_iff_not_or_not.mp hin with h1 | h1
      · have : i % 2 ^ 64 = i + 2 ^ 64 := by
          have := Int.emod_emod_of_dvd i (dvd_refl (2 ^ 64 : Int))
          omega
        omega
      · have : i % 2 ^ 64 = i := Int.emod_eq_of_lt (by omega) (by omega)
        omega
    rw [this, if_neg hin]

/-- The table of core types of a Wormhole chip, from its last entry to its first. -/
def wormholeEntries : List (Coord × CoreType) :=
  ((List.range 120).map fun i => (⟨0, (i / 10 : Nat), (i % 10 : Nat)⟩, whCore (i / 10) (i % 10))).reverse

/-- The grid of a Wormhole chip: a DRAM core, and the core of row 1 read as column 16 of row 0, another as column -1 of row 2. -/
example : ∃ g, fillCores .release 12 10 wormholeEntries = .ok g ∧ g.read .release (sizeT 11) (sizeT 0) = .ok .dram ∧
    g.read .release (sizeT 0) (sizeT 16) = g.read .release (sizeT 1) (sizeT 6) ∧
    g.read .release (sizeT 2) (sizeT (-1)) = g.read .release (sizeT 1) (sizeT 9) ∧
    g.read .release (sizeT 12) (sizeT 0) = .ub := by
  obtain ⟨g, e, h⟩ := C127_cores (wormhole .exact false 1) (by decide) (by decide) wormholeEntries (by decide +kernel)
    (show ∀ r c : Nat, r < 12 → c < 10 → ∃ e ∈ wormholeEntries, e.1.row = r ∧ e.1.col = c from fun r c hr hc =>
      (by decide +kernel : ∀ r, r < 12 → ∀ c, c < 10 → ∃ e ∈ wormholeEntries, e.1.row = (r : Nat) ∧ e.1.col = (c : Nat)) r hr c hc)
  refine ⟨g, e, ?_, ?_, ?_, ?_⟩
  · exact (h ⟨0, 11, 0⟩ (by decide) (by decide)).trans (by decide +kernel)
  · exact (h ⟨0, 0, 16⟩ (by decide) (by decide)).trans (Eq.trans (by decide +kernel) (h ⟨0, 1, 6⟩ (by decide) (by decide)).symm)
  · exact (h ⟨0, 2, -1⟩ (by decide) (by decide)).trans (Eq.trans (by decide +kernel) (h ⟨0, 1, 9⟩ (by decide) (by decide)).symm)
  · exact (h ⟨0, 12, 0⟩ (by decide) (by decide)).trans (by decide +kernel)

end NPE.Props
