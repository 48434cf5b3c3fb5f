import Verif.Spec.Layout
import Verif.Model.Device

/-
Property C126: the core types of the device models and the layout files.
-/

namespace NPE.Props
open NPE NPE.Spec

/-- The type that the lists give, as a function. -/
def Layout.find (l : Layout) (x y : Nat) : Option CoreType :=
  if (x, y) ∈ l.dram then some .dram
  else if (x, y) ∈ l.eth then some .eth
  else if (x, y) ∈ l.workers then some .worker
  else if (x, y) ∈ l.arc ∨ (x, y) ∈ l.pcie ∨ (x, y) ∈ l.routers then some .undef
  else none

theorem find_says {l : Layout} {x y : Nat} {t : CoreType} (h : Layout.find l x y = some t) : l.Says x y t := by
  unfold Layout.find at h
  split at h
  · rw [← Option.some.inj h]; exact .dram (by assumption)
  · split at h
    · rw [← Option.some.inj h]; exact .eth (by assumption)
    · split at h
      · rw [← Option.some.inj h]; exact .worker (by assumption)
      · split at h
        · rw [← Option.some.inj h]; exact .none (by assumption)
        · cases h

theorem says_mem {l : Layout} {x y : Nat} {t : CoreType} (h : l.Says x y t) : (x, y) ∈ l.all := by
  unfold Layout.all
  simp only [List.mem_append]
  cases h with
  | dram h => tauto
  | eth h => tauto
  | worker h => tauto
  | none h => tauto

/-- A position that occurs in one list only has one type. -/
theorem says_unique {l : Layout} (hl : l.all.Nodup) {x y : Nat} {t u : CoreType} (h : l.Says x y t) (h' : l.Says x y u) :
    t = u := by
  unfold Layout.all at hl
  simp only [List.nodup_append, List.mem_append] at hl
  cases h <;> cases h' <;> first | rfl | (exfalso; grind)

/-- The lists of a layout against a device. -/
theorem layout_device {l : Layout} {dev : Device} (hr : dev.rows = l.y) (hc : dev.cols = l.x) (hn : l.all.Nodup)
    (hin : ∀ p ∈ l.all, p.1 < l.x ∧ p.2 < l.y)
    (hf : ∀ y, y < l.y → ∀ x, x < l.x → Layout.find l x y = some (dev.coreTable y x))
    (c : Coord) (t : CoreType) (h0 : 0 ≤ c.row ∧ 0 ≤ c.col) :
    l.Says c.col.toNat c.row.toNat t ↔ c.row < dev.rows ∧ c.col < dev.cols ∧ dev.getCoreType c = .ok t := by
  have hget : c.row < dev.rows → c.col < dev.cols →
      dev.getCoreType c = .ok (dev.coreTable c.row.toNat c.col.toNat) := by
    intro h1 h2
    obtain ⟨r, er⟩ := Int.eq_ofNat_of_zero_le h0.1
    obtain ⟨q, eq⟩ := Int.eq_ofNat_of_zero_le h0.2
    rw [er] at h1 ⊢
    rw [eq] at h2 ⊢
    have hr' : r < dev.rows := by omega
    have hq' : q < dev.cols := by omega
    have hm : r * dev.cols + dev.cols ≤ dev.rows * dev.cols := by
      have : (r + 1) * dev.cols ≤ dev.rows * dev.cols := Nat.mul_le_mul_right _ hr'
      rw [Nat.add_mul, Nat.one_mul] at this; exact this
    have e : c.row * dev.cols + c.col = ((r * dev.cols + q : Nat) : Int) := by rw [er, eq]; push_cast; rfl
    unfold Device.getCoreType
    simp only [e]
    rw [if_pos ⟨by omega, by
      have : r * dev.cols + q < dev.rows * dev.cols := by omega
      exact_mod_cast this⟩, Int.toNat_natCast]
    rw [Nat.mul_comm r, Nat.mul_add_div (by omega), Nat.div_eq_of_lt hq', Nat.mul_add_mod, Nat.mod_eq_of_lt hq',
      Nat.add_zero]
    rfl
  constructor
  · intro h
    obtain ⟨h1, h2⟩ := hin _ (says_mem h)
    simp only at h1 h2
    have a : c.row < dev.rows := by omega
    have b : c.col < dev.cols := by omega
    refine ⟨a, b, ?_⟩
    rw [hget a b, says_unique hn h (find_says (hf _ h2 _ h1))]
  · rintro ⟨a, b, h⟩
    rw [hget a b] at h
    rw [← Out.ok.inj h]
    exact find_says (hf _ (by omega) _ (by omega))

/-- C126 for the Wormhole models, with any number of chips: a position of the grid has a type in the device model exactly
if the layout file says so, and the layout file says nothing about positions outside of the grid. -/
theorem C126_wormhole (fp : FP) (multi : Bool) (n : Nat) (c : Coord) (t : CoreType) (h0 : 0 ≤ c.row ∧ 0 ≤ c.col) :
    wormholeLayout.Says c.col.toNat c.row.toNat t ↔
      c.row < (wormhole fp multi n).rows ∧ c.col < (wormhole fp multi n).cols ∧ (wormhole fp multi n).getCoreType c = .ok t :=
  layout_device (dev := wormhole fp multi n) rfl rfl (by decide +kernel) (by decide +kernel)
    (show ∀ y, y < 12 → ∀ x, x < 10 → Layout.find wormholeLayout x y = some (whCore y x) by decide +kernel) c t h0

/-- C126 for the Blackhole models. -/
theorem C126_blackhole (fp : FP) (p150 : Bool) (c : Coord) (t : CoreType) (h0 : 0 ≤ c.row ∧ 0 ≤ c.col) :
    blackholeLayout.Says c.col.toNat c.row.toNat t ↔
      c.row < (blackhole fp p150).rows ∧ c.col < (blackhole fp p150).cols ∧ (blackhole fp p150).getCoreType c = .ok t :=
  layout_device (dev := blackhole fp p150) rfl rfl (by decide +kernel) (by decide +kernel)
    (show ∀ y, y < 12 → ∀ x, x < 17 → Layout.find blackholeLayout x y = some (bhCore y x) by decide +kernel) c t h0

/-- C126, the layout files: every position of the grid occurs exactly once. -/
theorem C126_files : (∀ l ∈ [wormholeLayout, blackholeLayout], l.all.Nodup ∧
    ∀ x y : Nat, (x, y) ∈ l.all ↔ x < l.x ∧ y < l.y) := by
  have key : ∀ l : Layout, (∀ p ∈ l.all, p.1 < l.x ∧ p.2 < l.y) → (∀ x, x < l.x → ∀ y, y < l.y → (x, y) ∈ l.all) →
      ∀ x y : Nat, (x, y) ∈ l.all ↔ x < l.x ∧ y < l.y :=
    fun l h1 h2 x y => ⟨fun h => h1 _ h, fun h => h2 x h.1 y h.2⟩
  intro l hl
  rcases List.mem_cons.mp hl with rfl | hl
  · exact ⟨by decide +kernel, key _ (by decide +kernel) (by decide +kernel)⟩
  · rcases List.mem_cons.mp hl with rfl | hl
    · exact ⟨by decide +kernel, key _ (by decide +kernel) (by decide +kernel)⟩
    · cases hl

/-- Some positions. -/
example : wormholeLayout.Says 0 11 .dram ∧ wormholeLayout.Says 9 6 .eth ∧ wormholeLayout.Says 9 11 .worker ∧
    wormholeLayout.Says 0 10 .undef ∧ (wormhole .exact true 8).getCoreType ⟨3, 6, 9⟩ = .ok .eth ∧
    blackholeLayout.Says 8 0 .undef ∧ (blackhole .exact true).getCoreType ⟨0, 0, 8⟩ = .ok .undef :=
  ⟨.dram (by decide), .eth (by decide), .worker (by decide), .none (by decide), by decide +kernel, .none (by decide),
    by decide +kernel⟩

end NPE.Props
