import Verif.Proofs.Chart
import Mathlib.Data.Int.Interval

/-
C143: a bar chart shows every value by a bar.
-/

namespace NPE.Props

open NPE.Chart NPE.Spec.Chart

theorem mark_le_iff {lo hi : ℚ} {n : ℕ} (hlt : lo < hi) (hn : 2 ≤ n) (t : ℤ) (v : ℚ) :
    (t : ℚ) ≤ (v - lo) / (hi - lo) * (n - 1) ↔ mark lo hi n t ≤ v := by
  have hd : 0 < hi - lo := by linarith
  have hN : (0 : ℚ) < (n : ℚ) - 1 := by
    have : (2 : ℚ) ≤ n := by exact_mod_cast hn
    linarith
  have : mark lo hi n t = lo + t * (hi - lo) / (n - 1) := by unfold mark; ring
  rw [this, div_mul_eq_mul_div, le_div_iff₀ hd, ← le_sub_iff_add_le', div_le_iff₀ hN]

theorem lt_mark_iff {lo hi : ℚ} {n : ℕ} (hlt : lo < hi) (hn : 2 ≤ n) (t : ℤ) (v : ℚ) :
    (v - lo) / (hi - lo) * (n - 1) < (t : ℚ) ↔ v < mark lo hi n t := by
  rw [← not_le, ← not_le, not_iff_not]
  exact mark_le_iff hlt hn t v

theorem trunc_lt_iff {q : ℚ} {t : ℤ} (ht : 0 < t) : trunc q < t ↔ q < t := by
  unfold trunc
  split
  · exact Int.floor_lt
  · have h1 : ⌈q⌉ ≤ 0 := Int.ceil_le.mpr (by push_cast; linarith)
    have h2 : (0 : ℚ) < t := by exact_mod_cast ht
    constructor
    · intro _; linarith
    · intro _; omega

/-- **C143** (partial).  For floating numbers in exact arithmetic: the cell in row `t` from below
and column `c` is part of a bar exactly if one of the points has its abscissa in the column and
the value of the row is positive and at most the value of the point.  (The lowest row never is.)
The labels are those of the specification. -/
theorem C143_partial {kx ky : Num} (hkx : kx ≠ .int) (hky : ky ≠ .int) {xs ys : List ℚ}
    (len : xs.length = ys.length) {lx hx ly hy : ℚ} (hX : Labels xs lx hx) (hY : Labels ys ly hy) {w h : ℕ}
    (w1 : 2 ≤ w) (w2 : w < 2147483648) (h1 : 2 ≤ h) (h2 : h < 2147483648) {p : Picture}
    (run : display .exact kx ky xs ys w h = .ok (some p)) :
    p.x = ⟨lx, hx⟩ ∧ p.y = ⟨ly, hy⟩ ∧ p.grid.rows = h ∧ p.grid.cols = w ∧
    ∀ t c : ℤ, 0 ≤ t → t < h → 0 ≤ c → c < w →
      (p.grid.cell (h - 1 - t) c = .bar ↔
        0 < t ∧ ∃ q ∈ xs.zip ys, (mark lx hx w c ≤ q.1 ∧ q.1 < mark lx hx w (c + 1)) ∧
          0 < mark ly hy h t ∧ mark ly hy h t ≤ q.2) := by
  obtain ⟨A, B⟩ := display_exact hkx hky len hX hY (w := w) (h := h) (by omega) w2 (by omega) h2 rfl rfl rfl rfl
  by_cases hf : Fits (trunc ((0 - ly) / (hy - ly) * (h - 1))) (trunc ((0 - lx) / (hx - lx) * (w - 1))) h
  · obtain ⟨g, e, hr, hc, W⟩ := A hf
    rw [run] at e
    cases e
    refine ⟨rfl, rfl, hr, hc, fun t c t0 t1 c0 c1 => ?_⟩
    obtain ⟨P, Q⟩ := W (h - 1 - t) c (by omega) (by omega) c0 c1
    set a := trunc ((0 - ly) / (hy - ly) * ((h : ℚ) - 1)) with ea
    have hly := (labels_lt hY).1
    have hlx := (labels_lt hX).1
    have same : (∃ q ∈ xs.zip ys, ⌊(q.1 - lx) / (hx - lx) * ((w : ℚ) - 1)⌋ = c ∧
          h - 1 - ⌊(q.2 - ly) / (hy - ly) * ((h : ℚ) - 1)⌋ ≤ h - 1 - t ∧
          h - 1 - t < min (max (h - 1 - a) 0) (h - 1)) ↔
        0 < t ∧ ∃ q ∈ xs.zip ys, (mark lx hx w c ≤ q.1 ∧ q.1 < mark lx hx w (c + 1)) ∧
          0 < mark ly hy h t ∧ mark ly hy h t ≤ q.2 := by
      have col : ∀ x : ℚ, ⌊(x - lx) / (hx - lx) * ((w : ℚ) - 1)⌋ = c ↔
          mark lx hx w c ≤ x ∧ x < mark lx hx w (c + 1) := by
        intro x
        rw [Int.floor_eq_iff, mark_le_iff hlx w1, ← lt_mark_iff hlx w1]
        push_cast
        rfl
      have row : ∀ y : ℚ, (h : ℤ) - 1 - ⌊(y - ly) / (hy - ly) * ((h : ℚ) - 1)⌋ ≤ h - 1 - t ↔
          mark ly hy h t ≤ y := by
        intro y
        rw [← mark_le_iff hly h1, ← Int.le_floor]
        constructor <;> intro _ <;> omega
      have low : (h : ℤ) - 1 - t < min (max (h - 1 - a) 0) (h - 1) ↔ 0 < t ∧ 0 < mark ly hy h t := by
        constructor
        · intro hh
          have ht : 0 < t := by omega
          refine ⟨ht, ?_⟩
          rw [← lt_mark_iff hly h1, ← trunc_lt_iff ht, ← ea]
          omega
        · rintro ⟨ht, hm⟩
          rw [← lt_mark_iff hly h1, ← trunc_lt_iff ht, ← ea] at hm
          omega
      constructor
      · rintro ⟨q, hq, k1, k2, k3⟩
        obtain ⟨l1, l2⟩ := low.mp k3
        exact ⟨l1, q, hq, (col _).mp k1, l2, (row _).mp k2⟩
      · rintro ⟨l1, q, hq, k1, l2, k2⟩
        exact ⟨q, hq, (col _).mpr k1, (row _).mpr k2, low.mpr ⟨l1, l2⟩⟩
    rw [← same]
    constructor
    · intro hbar
      by_contra hn
      rw [Q hn] at hbar
      split_ifs at hbar
    · exact P
  · rw [B hf] at run
    cases run

/-- A chart is shown (nothing undefined happens) whenever zero is not too far away: the distance
of the lower labels from zero is at most a thousand million times the distance between rows or
columns. -/
theorem C143_shown {kx ky : Num} (hkx : kx ≠ .int) (hky : ky ≠ .int) {xs ys : List ℚ}
    (len : xs.length = ys.length) {lx hx ly hy : ℚ} (hX : Labels xs lx hx) (hY : Labels ys ly hy) {w h : ℕ}
    (w1 : 1 ≤ w) (w2 : w ≤ 1000000000) (h1 : 1 ≤ h) (h2 : h ≤ 1000000000)
    (hx0 : |lx| * (w - 1) ≤ 1000000000 * (hx - lx)) (hy0 : |ly| * (h - 1) ≤ 1000000000 * (hy - ly)) :
    ∃ p, display .exact kx ky xs ys w h = .ok (some p) := by
  have key : ∀ {lo hi : ℚ} {n : ℕ}, lo < hi → 1 ≤ n → |lo| * (n - 1) ≤ 1000000000 * (hi - lo) →
      -1000000000 ≤ trunc ((0 - lo) / (hi - lo) * (n - 1)) ∧ trunc ((0 - lo) / (hi - lo) * (n - 1)) ≤ 1000000000 := by
    intro lo hi n hlt hn hb
    have hd : 0 < hi - lo := by linarith
    have hN : (0 : ℚ) ≤ (n : ℚ) - 1 := by
      have : (1 : ℚ) ≤ n := by exact_mod_cast hn
      linarith
    have : |(0 - lo) / (hi - lo) * ((n : ℚ) - 1)| ≤ 1000000000 := by
      rw [div_mul_eq_mul_div, abs_div, abs_of_pos hd, div_le_iff₀ hd, abs_mul, zero_sub, abs_neg, abs_of_nonneg hN]
      exact hb
    obtain ⟨a1, a2⟩ := abs_le.mp this
    unfold trunc
    split
    · rename_i h0
      have := Int.floor_nonneg.mpr h0
      have h3 : ⌊(0 - lo) / (hi - lo) * ((n : ℚ) - 1)⌋ ≤ 1000000000 := by
        rw [Int.floor_le_iff]; push_cast; linarith
      omega
    · rename_i h0
      have h3 : ⌈(0 - lo) / (hi - lo) * ((n : ℚ) - 1)⌉ ≤ 0 := Int.ceil_le.mpr (by push_cast; linarith)
      have h4 : -1000000000 ≤ ⌈(0 - lo) / (hi - lo) * ((n : ℚ) - 1)⌉ := by
        rw [Int.le_ceil_iff]; push_cast; linarith
      omega
  obtain ⟨A, _⟩ := display_exact hkx hky len hX hY (w := w) (h := h) w1 (by omega) h1 (by omega) rfl rfl rfl rfl
  obtain ⟨a1, a2⟩ := key (labels_lt hY).1 h1 hy0
  obtain ⟨b1, b2⟩ := key (labels_lt hX).1 w1 hx0
  obtain ⟨g, e, _⟩ := A ⟨by omega, by omega, by omega⟩
  exact ⟨_, e⟩

/-- If zero lies between the labels, the x axis is in the row for which the value is zero, or
the next one below. -/
theorem C143_axis {kx ky : Num} (hkx : kx ≠ .int) (hky : ky ≠ .int) {xs ys : List ℚ}
    (len : xs.length = ys.length) {lx hx ly hy : ℚ} (hX : Labels xs lx hx) (hY : Labels ys ly hy) {w h : ℕ}
    (w1 : 2 ≤ w) (w2 : w < 2147483648) (h1 : 2 ≤ h) (h2 : h < 2147483648) {p : Picture}
    (run : display .exact kx ky xs ys w h = .ok (some p)) (z1 : ly ≤ 0) (z2 : 0 ≤ hy) :
    (0 ≤ p.axisRow ∧ p.axisRow < h) ∧
    mark ly hy h (h - 1 - p.axisRow) ≤ 0 ∧ 0 < mark ly hy h (h - 1 - p.axisRow + 1) ∧
    ∀ c : ℤ, 0 ≤ c → c < w → p.grid.cell p.axisRow c = .hline ∨ p.grid.cell p.axisRow c = .origin := by
  obtain ⟨A, B⟩ := display_exact hkx hky len hX hY (w := w) (h := h) (by omega) w2 (by omega) h2 rfl rfl rfl rfl
  by_cases hf : Fits (trunc ((0 - ly) / (hy - ly) * (h - 1))) (trunc ((0 - lx) / (hx - lx) * (w - 1))) h
  · obtain ⟨g, e, hr, hc, W⟩ := A hf
    rw [run] at e
    cases e
    simp only
    set a := trunc ((0 - ly) / (hy - ly) * ((h : ℚ) - 1)) with ea
    have hly := (labels_lt hY).1
    have hd : 0 < hy - ly := by linarith
    have hN : (0 : ℚ) ≤ (h : ℚ) - 1 := by
      have : (2 : ℚ) ≤ h := by exact_mod_cast h1
      linarith
    have q0 : 0 ≤ (0 - ly) / (hy - ly) * ((h : ℚ) - 1) := mul_nonneg (div_nonneg (by linarith) hd.le) hN
    have q1 : (0 - ly) / (hy - ly) * ((h : ℚ) - 1) ≤ (h : ℚ) - 1 :=
      mul_le_of_le_one_left hN ((div_le_one hd).mpr (by linarith))
    have fa : a = ⌊(0 - ly) / (hy - ly) * ((h : ℚ) - 1)⌋ := by rw [ea]; unfold trunc; rw [if_pos q0]
    have a0 : 0 ≤ a := by rw [fa]; exact Int.floor_nonneg.mpr q0
    have a1 : a ≤ h - 1 := by rw [fa, Int.floor_le_iff]; push_cast; linarith
    have er : min (max ((h : ℤ) - 1 - a) 0) (h - 1) = h - 1 - a := by omega
    rw [er]
    have et : (h : ℤ) - 1 - (h - 1 - a) = a := by omega
    refine ⟨by omega, ?_, ?_, fun c c0 c1 => ?_⟩
    · rw [et, ← mark_le_iff hly h1, fa]
      exact Int.floor_le _
    · rw [et, ← lt_mark_iff hly h1, fa]
      push_cast
      exact Int.lt_floor_add_one _
    · obtain ⟨_, Q⟩ := W (h - 1 - a) c (by omega) (by omega) c0 c1
      rw [er] at Q
      rw [Q (fun ⟨_, _, _, _, hh⟩ => by omega)]
      by_cases h3 : c = min (max (trunc ((0 - lx) / (hx - lx) * ((w : ℚ) - 1))) 0) (w - 1)
      · right
        rw [if_pos ⟨rfl, h3⟩]
      · left
        rw [if_neg (fun hh => h3 hh.2), if_neg h3, if_pos rfl]
  · rw [B hf] at run
    cases run

/-- The bar of a value that is not negative and that is alone in its column has the height of the
value, up to one row, if the lower label is not positive. -/
theorem C143_height {kx ky : Num} (hkx : kx ≠ .int) (hky : ky ≠ .int) {xs ys : List ℚ}
    (len : xs.length = ys.length) {lx hx ly hy : ℚ} (hX : Labels xs lx hx) (hY : Labels ys ly hy) {w h : ℕ}
    (w1 : 2 ≤ w) (w2 : w < 2147483648) (h1 : 2 ≤ h) (h2 : h < 2147483648) {p : Picture}
    (run : display .exact kx ky xs ys w h = .ok (some p)) (z1 : ly ≤ 0) {q : ℚ × ℚ} (hq : q ∈ xs.zip ys)
    (hpos : 0 ≤ q.2) {c : ℤ} (c0 : 0 ≤ c) (c1 : c < w)
    (hcol : mark lx hx w c ≤ q.1 ∧ q.1 < mark lx hx w (c + 1))
    (alone : ∀ q' ∈ xs.zip ys, mark lx hx w c ≤ q'.1 → q'.1 < mark lx hx w (c + 1) → q' = q) :
    |(((Finset.Ico 0 (h : ℤ)).filter fun t => p.grid.cell (h - 1 - t) c = .bar).card : ℚ) *
      ((hy - ly) / (h - 1)) - q.2| < (hy - ly) / (h - 1) := by
  obtain ⟨_, _, _, _, W⟩ := C143_partial hkx hky len hX hY w1 w2 h1 h2 run
  have hly := (labels_lt hY).1
  have hqy := (labels_lt hY).2 _ (List.of_mem_zip hq).2
  have hd : 0 < hy - ly := by linarith
  have hN : (0 : ℚ) < (h : ℚ) - 1 := by
    have : (2 : ℚ) ≤ h := by exact_mod_cast h1
    linarith
  have hrow : 0 < (hy - ly) / ((h : ℚ) - 1) := div_pos hd hN
  set A := ⌊(0 - ly) / (hy - ly) * ((h : ℚ) - 1)⌋ with eA
  set B := ⌊(q.2 - ly) / (hy - ly) * ((h : ℚ) - 1)⌋ with eB
  have A0 : 0 ≤ A := Int.floor_nonneg.mpr (mul_nonneg (div_nonneg (by linarith) hd.le) hN.le)
  have AB : A ≤ B := Int.floor_le_floor (by gcongr)
  have Bh : B ≤ h - 1 := by
    rw [eB, Int.floor_le_iff]
    push_cast
    have := mul_le_of_le_one_left hN.le ((div_le_one hd).mpr (show q.2 - ly ≤ hy - ly by linarith))
    linarith
  have set_eq : ((Finset.Ico 0 (h : ℤ)).filter fun t => p.grid.cell (h - 1 - t) c = .bar) = Finset.Ioc A B := by
    ext t
    rw [Finset.mem_filter, Finset.mem_Ico, Finset.mem_Ioc]
    have lowA : 0 < mark ly hy h t ↔ A < t := by
      rw [← lt_mark_iff hly h1, eA, Int.floor_lt]
    have uppB : mark ly hy h t ≤ q.2 ↔ t ≤ B := by
      rw [← mark_le_iff hly h1, eB, Int.le_floor]
    constructor
    · rintro ⟨⟨t0, t1⟩, hb⟩
      obtain ⟨_, q', hq', ⟨k1, k2⟩, k3, k4⟩ := (W t c t0 t1 c0 c1).mp hb
      rw [alone q' hq' k1 k2] at k4
      exact ⟨lowA.mp k3, uppB.mp k4⟩
    · rintro ⟨k1, k2⟩
      refine ⟨by omega, (W t c (by omega) (by omega) c0 c1).mpr ⟨by omega, q, hq, hcol, lowA.mpr k1, uppB.mpr k2⟩⟩
  rw [set_eq, Int.card_Ioc]
  have cast : (((B - A).toNat : ℕ) : ℚ) = B - A := by
    have : (((B - A).toNat : ℕ) : ℤ) = B - A := Int.toNat_of_nonneg (by omega)
    exact_mod_cast this
  rw [cast]
  have fA1 := Int.floor_le ((0 - ly) / (hy - ly) * ((h : ℚ) - 1))
  have fA2 := Int.lt_floor_add_one ((0 - ly) / (hy - ly) * ((h : ℚ) - 1))
  have fB1 := Int.floor_le ((q.2 - ly) / (hy - ly) * ((h : ℚ) - 1))
  have fB2 := Int.lt_floor_add_one ((q.2 - ly) / (hy - ly) * ((h : ℚ) - 1))
  rw [← eA] at fA1 fA2
  rw [← eB] at fB1 fB2
  have hq2 : q.2 = ((q.2 - ly) / (hy - ly) * ((h : ℚ) - 1) - (0 - ly) / (hy - ly) * ((h : ℚ) - 1)) *
      ((hy - ly) / ((h : ℚ) - 1)) := by
    field_simp
    ring
  rw [abs_lt]
  constructor
  · nlinarith
  · nlinarith

/-- Columns without a positive value have no bar: negative values are not shown. -/
theorem C143_negative {kx ky : Num} (hkx : kx ≠ .int) (hky : ky ≠ .int) {xs ys : List ℚ}
    (len : xs.length = ys.length) {lx hx ly hy : ℚ} (hX : Labels xs lx hx) (hY : Labels ys ly hy) {w h : ℕ}
    (w1 : 2 ≤ w) (w2 : w < 2147483648) (h1 : 2 ≤ h) (h2 : h < 2147483648) {p : Picture}
    (run : display .exact kx ky xs ys w h = .ok (some p)) {c : ℤ} (c0 : 0 ≤ c) (c1 : c < w)
    (neg : ∀ q ∈ xs.zip ys, mark lx hx w c ≤ q.1 → q.1 < mark lx hx w (c + 1) → q.2 ≤ 0) {r : ℤ}
    (r0 : 0 ≤ r) (r1 : r < h) : p.grid.cell r c ≠ .bar := by
  intro hb
  obtain ⟨_, _, _, _, W⟩ := C143_partial hkx hky len hX hY w1 w2 h1 h2 run
  have e : (h : ℤ) - 1 - (h - 1 - r) = r := by omega
  have := W (h - 1 - r) c (by omega) (by omega) c0 c1
  rw [e] at this
  obtain ⟨_, q, hq, ⟨k1, k2⟩, k3, k4⟩ := this.mp hb
  have := neg q hq k1 k2
  linarith

/-- Ranges of different sizes are refused with a message; empty ranges are undefined (the
smallest element is taken from the end of the range). -/
theorem C143_sizes (fp : FP) (kx ky : Num) (xs ys : List ℚ) (w h : ℕ) :
    (display fp kx ky xs ys w h = .ok none ↔ xs.length ≠ ys.length) ∧
    display fp kx ky [] [] w h = .ub := by
  refine ⟨⟨fun hd => ?_, fun hn => by unfold display; rw [if_pos hn]⟩, rfl⟩
  intro he
  unfold display at hd
  rw [if_neg (not_not.mpr he)] at hd
  split at hd
  · simp only [Out.bind_eq_ok] at hd
    obtain ⟨_, _, _, _, _, _, _, _, _, _, _, _, _, _, hh⟩ := hd
    cases hh
  · cases hd

/-- The picture as text, for the examples. -/
def shown (o : Out (Option Picture)) : Option (List (List Cell)) :=
  match o with
  | .ok (some p) => some ((List.range p.grid.rows).map fun r => (List.range p.grid.cols).map fun c => p.grid.cell r c)
  | _ => none

/-- **C143** is violated.  A value of -3 has no bar at all, while one of 2 has; for numbers of
type `int` the x axis is drawn below all values although zero lies between them, and the bar
of the value -5 rises from it; a value far from zero makes the conversion to `int` undefined. -/
theorem C143_violated :
    shown (display .exact .f64 .f64 [0, 1, 2] [2, -3, 2] 4 4) =
      some [[.vline, .blank, .blank, .blank], [.bar, .blank, .bar, .blank],
        [.origin, .hline, .hline, .hline], [.vline, .blank, .blank, .blank]] ∧
    shown (display .exact .f64 .f64 [0, 1, 2] [10, -5, -10] 4 4) =
      some [[.vline, .blank, .blank, .blank], [.bar, .blank, .blank, .blank],
        [.origin, .hline, .hline, .hline], [.vline, .blank, .blank, .blank]] ∧
    shown (display .exact .f64 .int [0, 1, 2] [10, -5, -10] 4 5) =
      some [[.vline, .blank, .blank, .blank], [.bar, .blank, .blank, .blank],
        [.bar, .blank, .blank, .blank], [.bar, .bar, .blank, .blank], [.origin, .hline, .hline, .hline]] ∧
    display .exact .f64 .f64 [0, 1, 2] [1000000000, 1000000000, 1000000000] 60 20 = .ub := by
  refine ⟨by decide +kernel, by decide +kernel, by decide +kernel, ?_⟩
  have hX : Labels [0, 1, 2] (-1 / 10) (21 / 10) :=
    ⟨0, by simp, 2, by simp, by simp, 2, by norm_num, by norm_num, by norm_num, by norm_num⟩
  have hY : Labels [1000000000, 1000000000, 1000000000] (1000000000 - 1 / 20) (1000000000 + 1 + 1 / 20) :=
    ⟨1000000000, by simp, 1000000000, by simp, by simp, 1, by norm_num, by norm_num, by norm_num, by norm_num⟩
  apply (display_exact (kx := .f64) (ky := .f64) (by decide) (by decide) (by rfl) hX hY (w := 60) (h := 20) (by decide)
    (by decide) (by decide) (by decide) rfl rfl rfl rfl).2
  rintro ⟨⟨h, _⟩, _⟩
  exact absurd h (by decide +kernel)

/-- A chart of three values, with the labels and one of the bars (cf. `C143_partial`,
`C143_shown`, `C143_height`). -/
example : ∃ p, display .exact .f32 .f64 [0, 1, 2] [0, 2, 4] 9 6 = .ok (some p) ∧
    p.y = ⟨-1 / 5, 21 / 5⟩ ∧ p.grid.cell 3 4 = .bar ∧ p.grid.cell 2 4 ≠ .bar ∧ p.grid.cell 1 7 = .bar := by
  have hX : Labels [0, 1, 2] (-1 / 10) (21 / 10) :=
    ⟨0, by simp, 2, by simp, by simp, 2, by norm_num, by norm_num, by norm_num, by norm_num⟩
  have hY : Labels [0, 2, 4] (-1 / 5) (21 / 5) :=
    ⟨0, by simp, 4, by simp, by simp; norm_num, 4, by norm_num, by norm_num, by norm_num, by norm_num⟩
  obtain ⟨p, hp⟩ := C143_shown (kx := .f32) (ky := .f64) (by decide) (by decide) (by rfl) hX hY (w := 9) (h := 6)
    (by decide) (by decide) (by decide) (by decide) (by norm_num [abs_of_nonpos]) (by norm_num [abs_of_nonpos])
  obtain ⟨_, hy, _, _, W⟩ := C143_partial (by decide) (by decide) (by rfl) hX hY (by decide) (by decide) (by decide)
    (by decide) hp
  refine ⟨p, hp, hy, ?_, ?_, ?_⟩
  · exact (W 2 4 (by decide) (by decide) (by decide) (by decide)).mpr ⟨by decide, (1, 2), by simp [List.zip], by
      norm_num [mark], by norm_num [mark], by norm_num [mark]⟩
  · intro hb
    obtain ⟨_, q, hq, hc, _, hh⟩ := (W 3 4 (by decide) (by decide) (by decide) (by decide)).mp hb
    simp only [List.zip, List.zipWith, List.mem_cons, List.not_mem_nil, or_false] at hq
    rcases hq with rfl | rfl | rfl
    · norm_num [mark] at hh
    · norm_num [mark] at hh
    · norm_num [mark] at hc
  · exact (W 4 7 (by decide) (by decide) (by decide) (by decide)).mpr ⟨by decide, (2, 4), by simp [List.zip], by
      norm_num [mark], by norm_num [mark], by norm_num [mark]⟩

end NPE.Props
