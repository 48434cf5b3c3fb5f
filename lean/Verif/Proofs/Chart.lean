import Verif.Model.Chart
import Verif.Spec.Chart
import Verif.Proofs.Scan
import Mathlib.Tactic.Linarith
import Mathlib.Tactic.Ring
import Mathlib.Tactic.FieldSimp
import Mathlib.Tactic.Positivity

/-
What is drawn in a bar chart.
-/

namespace NPE.Chart

theorem write_ok {g g' : Canvas} {r c : ℤ} {v : Cell} (h : g.write r c v = .ok g') :
    g'.rows = g.rows ∧ g'.cols = g.cols ∧
      g'.cell = fun r' c' => if r' = r ∧ c' = c then v else g.cell r' c' := by
  unfold Canvas.write at h
  split at h
  · cases h; exact ⟨rfl, rfl, rfl⟩
  · cases h

theorem write_in {g : Canvas} {r c : ℤ} {v : Cell} (hr : 0 ≤ r ∧ r < g.rows) (hc : 0 ≤ c ∧ c < g.cols) :
    ∃ g', g.write r c v = .ok g' := by
  unfold Canvas.write
  rw [if_pos ⟨hr.1, hr.2, hc.1, hc.2⟩]
  exact ⟨_, rfl⟩

/-- A loop that writes one kind of mark, guarded so that it stays inside. -/
theorem paint (pos : ℕ → ℤ × ℤ) (guard : Canvas → ℕ → Prop) [∀ g i, Decidable (guard g i)] (v : Cell)
    (rows cols : ℕ) :
    ∀ (l : List ℕ) (g : Canvas), g.rows = rows → g.cols = cols →
      (∀ i ∈ l, ∀ g : Canvas, g.rows = rows → g.cols = cols →
        (guard g i ↔ (0 ≤ (pos i).1 ∧ (pos i).1 < rows) ∧ 0 ≤ (pos i).2 ∧ (pos i).2 < cols)) →
      ∃ g', Out.foldlM (fun g i => if guard g i then g.write (pos i).1 (pos i).2 v else .ok g) g l = .ok g' ∧
        g'.rows = rows ∧ g'.cols = cols ∧
        ∀ r c : ℤ, 0 ≤ r → r < rows → 0 ≤ c → c < cols →
          ((r, c) ∈ l.map pos → g'.cell r c = v) ∧ ((r, c) ∉ l.map pos → g'.cell r c = g.cell r c) := by
  intro l
  induction l with
  | nil => intro g hr hc _; exact ⟨g, rfl, hr, hc, fun r c _ _ _ _ => ⟨fun h => by simp at h, fun _ => rfl⟩⟩
  | cons i l ih =>
    intro g hr hc hall
    have key : ∃ g1, (if guard g i then g.write (pos i).1 (pos i).2 v else .ok g) = .ok g1 ∧
        g1.rows = rows ∧ g1.cols = cols ∧
        ∀ r c : ℤ, 0 ≤ r → r < rows → 0 ≤ c → c < cols →
          g1.cell r c = if (r, c) = pos i then v else g.cell r c := by
      by_cases hg : guard g i
      · have hin := (hall i List.mem_cons_self g hr hc).mp hg
        obtain ⟨g1, e⟩ := write_in (g := g) (v := v) (r := (pos i).1) (c := (pos i).2)
          (by rw [hr]; exact hin.1) (by rw [hc]; exact hin.2)
        obtain ⟨a, b, d⟩ := write_ok e
        refine ⟨g1, by rw [if_pos hg, e], a.trans hr, b.trans hc, fun r c _ _ _ _ => ?_⟩
        rw [d]
        simp only [Prod.ext_iff]
      · refine ⟨g, by rw [if_neg hg], hr, hc, fun r c r0 r1 c0 c1 => ?_⟩
        rw [if_neg]
        intro e
        apply hg
        apply (hall i List.mem_cons_self g hr hc).mpr
        rw [← e]
        exact ⟨⟨r0, r1⟩, c0, c1⟩
    obtain ⟨g1, e1, r1, c1, w1⟩ := key
    obtain ⟨g2, e2, r2, c2, w2⟩ := ih g1 r1 c1 (fun j hj => hall j (List.mem_cons_of_mem _ hj))
    refine ⟨g2, ?_, r2, c2, fun r c hr0 hr1 hc0 hc1 => ?_⟩
    · rw [Out.foldlM_cons, e1]
      exact e2
    · have := w1 r c hr0 hr1 hc0 hc1
      obtain ⟨p, q⟩ := w2 r c hr0 hr1 hc0 hc1
      rw [List.map_cons, List.mem_cons]
      constructor
      · intro h
        by_cases hm : (r, c) ∈ l.map pos
        · exact p hm
        · rw [q hm, this, if_pos]
          exact h.resolve_right hm
      · intro h
        rw [q (fun hm => h (Or.inr hm)), this, if_neg (fun hm => h (Or.inl hm))]

/-- The axes. -/
theorem axes_ok (h w : ℕ) (ar ac : ℤ) (hr : 0 ≤ ar ∧ ar < h) (hc : 0 ≤ ac ∧ ac < w) :
    ∃ g, axes ⟨h, w, fun _ _ => .blank⟩ ar ac = .ok g ∧ g.rows = h ∧ g.cols = w ∧
      ∀ r c : ℤ, 0 ≤ r → r < h → 0 ≤ c → c < w →
        g.cell r c = if r = ar ∧ c = ac then .origin else if c = ac then .vline
          else if r = ar then .hline else .blank := by
  obtain ⟨g1, e1, r1, c1, w1⟩ := paint (fun i => (ar, (i : ℤ)))
    (fun (g : Canvas) _ => 0 ≤ ar ∧ ar < g.rows) .hline h w (List.range w) ⟨h, w, fun _ _ => .blank⟩ rfl rfl (by
      intro i hi g gr gc
      have := List.mem_range.mp hi
      simp only [gr]
      constructor
      · intro h1; exact ⟨h1, by omega⟩
      · intro h1; exact h1.1)
  obtain ⟨g2, e2, r2, c2, w2⟩ := paint (fun i => ((i : ℤ), ac))
    (fun (g : Canvas) _ => 0 ≤ ac ∧ ac < g.cols) .vline h w (List.range h) g1 r1 c1 (by
      intro i hi g gr gc
      have := List.mem_range.mp hi
      simp only [gc]
      constructor
      · intro h1; exact ⟨by omega, h1⟩
      · intro h1; exact h1.2)
  obtain ⟨g3, e3⟩ := write_in (g := g2) (v := .origin) (r := ar) (c := ac) (by rw [r2]; exact hr)
    (by rw [c2]; exact hc)
  obtain ⟨r3, c3, w3⟩ := write_ok e3
  refine ⟨g3, ?_, r3.trans r2, c3.trans c2, fun r c a b d e => ?_⟩
  · unfold axes
    simp only at e1 e2
    rw [e1]
    simp only [Out.bind_ok, r1]
    rw [e2]
    simp only [Out.bind_ok]
    rw [if_pos ⟨hr.1, by rw [r2]; exact hr.2, hc.1, by rw [c2]; exact hc.2⟩, e3]
  · rw [w3]
    simp only
    obtain ⟨p1, q1⟩ := w1 r c a b d e
    obtain ⟨p2, q2⟩ := w2 r c a b d e
    by_cases h1 : r = ar ∧ c = ac
    · rw [if_pos h1, if_pos h1]
    · rw [if_neg h1, if_neg h1]
      by_cases h2 : c = ac
      · rw [if_pos h2]
        apply p2
        rw [List.mem_map]
        refine ⟨r.toNat, List.mem_range.mpr (by omega), ?_⟩
        ext
        · simp only; omega
        · simp only; omega
      · rw [if_neg h2, q2 (by
          rw [List.mem_map]
          rintro ⟨i, _, hi⟩
          exact h2 (Prod.ext_iff.mp hi).2.symm)]
        by_cases h3 : r = ar
        · rw [if_pos h3]
          apply p1
          rw [List.mem_map]
          refine ⟨c.toNat, List.mem_range.mpr (by omega), ?_⟩
          ext
          · simp only; omega
          · simp only; omega
        · rw [if_neg h3, q1 (by
            rw [List.mem_map]
            rintro ⟨i, _, hi⟩
            exact h3 (Prod.ext_iff.mp hi).1.symm)]

/-- One bar. -/
theorem bar_ok {g : Canvas} {h w : ℕ} {ar col b : ℤ} (hr : g.rows = h) (hw : g.cols = w)
    (har : 0 ≤ ar ∧ ar < h) (hb : -2147483648 ≤ h - 1 - b ∧ h - 1 - b < 2147483648) :
    ∃ g', bar g ar col b = .ok g' ∧ g'.rows = h ∧ g'.cols = w ∧
      ∀ r c : ℤ, 0 ≤ r → r < h → 0 ≤ c → c < w →
        g'.cell r c = if c = col ∧ h - 1 - b ≤ r ∧ r < ar then .bar else g.cell r c := by
  unfold bar toInt
  rw [hr, if_pos hb, if_pos har]
  simp only [Out.bind_ok, hw]
  by_cases hc : 0 ≤ col ∧ col < w
  · rw [if_pos hc]
    obtain ⟨g1, e1, r1, c1, w1⟩ := paint (fun i => (ar - 1 - (i : ℤ), col))
      (fun (g : Canvas) (i : ℕ) => 0 ≤ ar - 1 - (i : ℤ) ∧ ar - 1 - (i : ℤ) < g.rows) .bar h w
      (List.range (ar - max 0 (h - 1 - b)).toNat) g hr hw (by
        intro i hi g gr gc
        simp only [gr]
        constructor
        · intro h1; exact ⟨h1, hc⟩
        · intro h1; exact h1.1)
    refine ⟨g1, e1, r1, c1, fun r c a d e f => ?_⟩
    obtain ⟨p, q⟩ := w1 r c a d e f
    by_cases hm : c = col ∧ h - 1 - b ≤ r ∧ r < ar
    · rw [if_pos hm]
      apply p
      rw [List.mem_map]
      refine ⟨(ar - 1 - r).toNat, List.mem_range.mpr (by omega), ?_⟩
      ext
      · simp only; omega
      · simp only; omega
    · rw [if_neg hm]
      apply q
      rw [List.mem_map]
      rintro ⟨i, hi, e'⟩
      have := List.mem_range.mp hi
      have e1 := (Prod.ext_iff.mp e').1
      have e2 := (Prod.ext_iff.mp e').2
      simp only at e1 e2
      apply hm
      omega
  · rw [if_neg hc]
    refine ⟨g, rfl, hr, hw, fun r c a d e f => ?_⟩
    rw [if_neg]
    rintro ⟨h1, _⟩
    apply hc
    omega

/-- All bars. -/
theorem bars_ok {X Y : ℚ → Out ℤ} {h w : ℕ} {ar : ℤ} (har : 0 ≤ ar ∧ ar < h) :
    ∀ (l : List (ℚ × ℚ)) (g : Canvas), g.rows = h → g.cols = w →
      (∀ p ∈ l, ∃ col b, X p.1 = .ok col ∧ Y p.2 = .ok b ∧
        -2147483648 ≤ (h : ℤ) - 1 - b ∧ (h : ℤ) - 1 - b < 2147483648) →
      ∃ g', Out.foldlM (fun g p => do
          let col ← X p.1
          let b ← Y p.2
          bar g ar col b) g l = .ok g' ∧ g'.rows = h ∧ g'.cols = w ∧
        ∀ r c : ℤ, 0 ≤ r → r < h → 0 ≤ c → c < w →
          ((∃ p ∈ l, X p.1 = .ok c ∧ ∃ b, Y p.2 = .ok b ∧ h - 1 - b ≤ r ∧ r < ar) → g'.cell r c = .bar) ∧
          ((¬ ∃ p ∈ l, X p.1 = .ok c ∧ ∃ b, Y p.2 = .ok b ∧ h - 1 - b ≤ r ∧ r < ar) →
            g'.cell r c = g.cell r c) := by
  intro l
  induction l with
  | nil =>
    intro g hr hw _
    exact ⟨g, rfl, hr, hw, fun r c _ _ _ _ => ⟨fun ⟨p, hp, _⟩ => by simp at hp, fun _ => rfl⟩⟩
  | cons p l ih =>
    intro g hr hw hall
    obtain ⟨col, b, eX, eY, hb⟩ := hall p List.mem_cons_self
    obtain ⟨g1, e1, r1, c1, w1⟩ := bar_ok (col := col) hr hw har hb
    obtain ⟨g2, e2, r2, c2, w2⟩ := ih g1 r1 c1 (fun q hq => hall q (List.mem_cons_of_mem _ hq))
    refine ⟨g2, ?_, r2, c2, fun r c a d e f => ?_⟩
    · rw [Out.foldlM_cons]
      simp only [eX, eY, Out.bind_ok, e1]
      exact e2
    · obtain ⟨P, Q⟩ := w2 r c a d e f
      have W := w1 r c a d e f
      by_cases hl : ∃ p ∈ l, X p.1 = .ok c ∧ ∃ b, Y p.2 = .ok b ∧ h - 1 - b ≤ r ∧ r < ar
      · refine ⟨fun _ => P hl, fun hn => ?_⟩
        obtain ⟨q, hq, hh⟩ := hl
        exact absurd ⟨q, List.mem_cons_of_mem _ hq, hh⟩ hn
      · rw [Q hl, W]
        constructor
        · rintro ⟨q, hq, hX, b', hY, h1, h2⟩
          rcases List.mem_cons.mp hq with rfl | hq
          · rw [eX] at hX; rw [eY] at hY
            cases hX; cases hY
            rw [if_pos ⟨rfl, h1, h2⟩]
          · exact absurd ⟨q, hq, hX, b', hY, h1, h2⟩ hl
        · intro hn
          rw [if_neg]
          rintro ⟨rfl, h1, h2⟩
          exact hn ⟨p, List.mem_cons_self, eX, b, eY, h1, h2⟩

/-! ### Numbers -/

theorem foldl_min (v : ℚ) (vs : List ℚ) :
    vs.foldl min v ∈ v :: vs ∧ ∀ u ∈ v :: vs, vs.foldl min v ≤ u := by
  induction vs generalizing v with
  | nil => simp
  | cons a l ih =>
    obtain ⟨h1, h2⟩ := ih (min v a)
    rw [List.foldl_cons]
    constructor
    · rcases List.mem_cons.mp h1 with h | h
      · rw [h]
        rcases min_choice v a with e | e <;> rw [e] <;> simp
      · exact List.mem_cons_of_mem _ (List.mem_cons_of_mem _ h)
    · intro u hu
      have h0 := h2 _ List.mem_cons_self
      rcases List.mem_cons.mp hu with rfl | hu
      · exact h0.trans (min_le_left _ _)
      · rcases List.mem_cons.mp hu with rfl | hu
        · exact h0.trans (min_le_right _ _)
        · exact h2 u (List.mem_cons_of_mem _ hu)

theorem foldl_max (v : ℚ) (vs : List ℚ) :
    vs.foldl max v ∈ v :: vs ∧ ∀ u ∈ v :: vs, u ≤ vs.foldl max v := by
  induction vs generalizing v with
  | nil => simp
  | cons a l ih =>
    obtain ⟨h1, h2⟩ := ih (max v a)
    rw [List.foldl_cons]
    constructor
    · rcases List.mem_cons.mp h1 with h | h
      · rw [h]
        rcases max_choice v a with e | e <;> rw [e] <;> simp
      · exact List.mem_cons_of_mem _ (List.mem_cons_of_mem _ h)
    · intro u hu
      have h0 := h2 _ List.mem_cons_self
      rcases List.mem_cons.mp hu with rfl | hu
      · exact (le_max_left _ _).trans h0
      · rcases List.mem_cons.mp hu with rfl | hu
        · exact (le_max_right _ _).trans h0
        · exact h2 u (List.mem_cons_of_mem _ hu)

theorem span_exact {k : Num} (hk : k ≠ .int) {v : ℚ} {vs : List ℚ} {lo hi : ℚ}
    (h : Spec.Chart.Labels (v :: vs) lo hi) : span .exact k v vs = ⟨lo, hi⟩ := by
  obtain ⟨m, hm, M, hM, hb, D, hD1, hD2, rfl, rfl⟩ := h
  have e1 : vs.foldl min v = m := le_antisymm ((foldl_min v vs).2 m hm) (hb _ (foldl_min v vs).1).1
  have e2 : vs.foldl max v = M := le_antisymm (hb _ (foldl_max v vs).1).2 ((foldl_max v vs).2 M hM)
  unfold span
  rw [e1, e2]
  by_cases hmM : m = M
  · have := hD1 hmM
    cases k
    · exact absurd rfl hk
    all_goals
      simp only [if_pos hmM, Num.store, Num.fl, Num.sub, FP.exact, Rounding.exact, Span.mk.injEq]
      rw [this]
      constructor <;> ring
  · have := hD2 hmM
    cases k
    · exact absurd rfl hk
    all_goals
      simp only [if_neg hmM, Num.store, Num.fl, Num.sub, FP.exact, Rounding.exact, Span.mk.injEq]
      rw [this]
      constructor <;> ring

theorem labels_lt {vs : List ℚ} {lo hi : ℚ} (h : Spec.Chart.Labels vs lo hi) :
    lo < hi ∧ ∀ v ∈ vs, lo < v ∧ v < hi := by
  obtain ⟨m, hm, M, hM, hb, D, hD1, hD2, rfl, rfl⟩ := h
  have hD : 0 < D ∧ M ≤ m + D := by
    by_cases e : m = M
    · rw [hD1 e, e]; constructor <;> linarith
    · have := lt_of_le_of_ne (hb M hM).1 e
      rw [hD2 e]
      constructor <;> linarith
  refine ⟨by linarith, fun v hv => ?_⟩
  have := hb v hv
  constructor <;> linarith

theorem zeroAt_exact {k : Num} (hk : k ≠ .int) {lo hi : ℚ} (h : lo < hi) (n : ℕ) :
    zeroAt .exact k ⟨lo, hi⟩ n = toInt (trunc ((0 - lo) / (hi - lo) * (n - 1))) := by
  have : hi - lo ≠ 0 := by linarith
  cases k
  · exact absurd rfl hk
  all_goals
    unfold zeroAt
    rw [if_neg (by exact this)]
    rfl

theorem place_exact {k : Num} (hk : k ≠ .int) {lo hi : ℚ} (h : lo < hi) (n : ℕ) (v : ℚ) :
    place .exact k ⟨lo, hi⟩ n v = toInt (trunc ((v - lo) / (hi - lo) * (n - 1))) := by
  have : hi - lo ≠ 0 := by linarith
  cases k
  · exact absurd rfl hk
  all_goals
    unfold place
    rw [if_neg (by exact this)]
    rfl

theorem toInt_ok {z a : ℤ} : toInt z = .ok a ↔ z = a ∧ -2147483648 ≤ a ∧ a < 2147483648 := by
  unfold toInt
  split
  · constructor
    · intro h; cases h; exact ⟨rfl, ‹_›⟩
    · rintro ⟨rfl, _⟩; rfl
  · constructor
    · intro h; cases h
    · rintro ⟨rfl, h⟩; exact absurd h ‹_›

theorem clamp_ok {v a : ℤ} {n : ℕ} : clamp v n = .ok a ↔ n ≠ 0 ∧ a = min (max v 0) (n - 1) := by
  unfold clamp
  split
  · constructor
    · intro h; cases h
    · rintro ⟨h, _⟩; exact absurd ‹_› h
  · constructor
    · intro h; cases h; exact ⟨‹_›, rfl⟩
    · rintro ⟨_, rfl⟩; rfl

/-- The place of a value between the labels. -/
theorem place_floor {k : Num} (hk : k ≠ .int) {lo hi : ℚ} {n : ℕ} (hn : 1 ≤ n) (hn' : n < 2147483648) {v : ℚ}
    (h1 : lo < v) (h2 : v < hi) :
    place .exact k ⟨lo, hi⟩ n v = .ok ⌊(v - lo) / (hi - lo) * (n - 1)⌋ ∧
      0 ≤ ⌊(v - lo) / (hi - lo) * ((n : ℚ) - 1)⌋ ∧ ⌊(v - lo) / (hi - lo) * ((n : ℚ) - 1)⌋ ≤ n - 1 := by
  have hn1 : (0 : ℚ) ≤ (n : ℚ) - 1 := by
    have : (1 : ℚ) ≤ n := by exact_mod_cast hn
    linarith
  have hq0 : 0 ≤ (v - lo) / (hi - lo) := div_nonneg (by linarith) (by linarith)
  have hq1 : (v - lo) / (hi - lo) ≤ 1 := by
    rw [div_le_one (by linarith)]; linarith
  have a : 0 ≤ (v - lo) / (hi - lo) * ((n : ℚ) - 1) := mul_nonneg hq0 hn1
  have b : (v - lo) / (hi - lo) * ((n : ℚ) - 1) ≤ (n : ℚ) - 1 := mul_le_of_le_one_left hn1 hq1
  have fa := Int.floor_nonneg.mpr a
  have fb : ⌊(v - lo) / (hi - lo) * ((n : ℚ) - 1)⌋ ≤ (n : ℤ) - 1 := by
    rw [Int.floor_le_iff]
    push_cast
    linarith
  refine ⟨?_, fa, fb⟩
  rw [place_exact hk (by linarith)]
  rw [toInt_ok]
  unfold trunc
  rw [if_pos a]
  refine ⟨rfl, by omega, by omega⟩

/-- The numbers of the two axes fit into an `int`. -/
def Fits (a b : ℤ) (h : ℕ) : Prop :=
  (-2147483648 ≤ a ∧ a < 2147483648) ∧ (-2147483648 ≤ (h : ℤ) - 1 - a ∧ (h : ℤ) - 1 - a < 2147483648) ∧
    (-2147483648 ≤ b ∧ b < 2147483648)

/-- What is drawn in exact arithmetic. -/
theorem display_exact {kx ky : Num} (hkx : kx ≠ .int) (hky : ky ≠ .int) {xs ys : List ℚ}
    (len : xs.length = ys.length) {lx hx ly hy : ℚ} (hX : Spec.Chart.Labels xs lx hx)
    (hY : Spec.Chart.Labels ys ly hy) {w h : ℕ} (w1 : 1 ≤ w) (w2 : w < 2147483648) (h1 : 1 ≤ h)
    (h2 : h < 2147483648) {a b ar ac : ℤ} (ea : a = trunc ((0 - ly) / (hy - ly) * (h - 1)))
    (eb : b = trunc ((0 - lx) / (hx - lx) * (w - 1))) (er : ar = min (max (h - 1 - a) 0) (h - 1))
    (ec : ac = min (max b 0) (w - 1)) :
    (Fits a b h → ∃ g, display .exact kx ky xs ys w h = .ok (some ⟨g, ar, ac, ⟨lx, hx⟩, ⟨ly, hy⟩⟩) ∧
      g.rows = h ∧ g.cols = w ∧
      ∀ r c : ℤ, 0 ≤ r → r < h → 0 ≤ c → c < w →
        ((∃ q ∈ xs.zip ys, ⌊(q.1 - lx) / (hx - lx) * (w - 1)⌋ = c ∧
            h - 1 - ⌊(q.2 - ly) / (hy - ly) * (h - 1)⌋ ≤ r ∧ r < ar) → g.cell r c = .bar) ∧
        ((¬ ∃ q ∈ xs.zip ys, ⌊(q.1 - lx) / (hx - lx) * (w - 1)⌋ = c ∧
            h - 1 - ⌊(q.2 - ly) / (hy - ly) * (h - 1)⌋ ≤ r ∧ r < ar) →
          g.cell r c = if r = ar ∧ c = ac then .origin else if c = ac then .vline
            else if r = ar then .hline else .blank)) ∧
    (¬ Fits a b h → display .exact kx ky xs ys w h = .ub) := by
  have hlx := labels_lt hX
  have hly := labels_lt hY
  obtain ⟨x, xs', rfl⟩ : ∃ x xs', xs = x :: xs' := by
    cases xs with
    | nil => obtain ⟨m, hm, _⟩ := hX; simp at hm
    | cons x xs' => exact ⟨x, xs', rfl⟩
  obtain ⟨y, ys', rfl⟩ : ∃ y ys', ys = y :: ys' := by
    cases ys with
    | nil => simp at len
    | cons y ys' => exact ⟨y, ys', rfl⟩
  have unf : display .exact kx ky (x :: xs') (y :: ys') w h =
      (do
      let a ← toInt a
      let ar ← toInt (h - 1 - a)
      let ac ← toInt b
      let ar ← clamp ar h
      let ac ← clamp ac w
      let g ← axes ⟨h, w, fun _ _ => .blank⟩ ar ac
      let g ← Out.foldlM (fun g p => do
        let col ← place .exact kx ⟨lx, hx⟩ w p.1
        let b ← place .exact ky ⟨ly, hy⟩ h p.2
        bar g ar col b) g ((x :: xs').zip (y :: ys'))
      .ok (some ⟨g, ar, ac, ⟨lx, hx⟩, ⟨ly, hy⟩⟩)) := by
    unfold display
    rw [if_neg (not_not.mpr len)]
    simp only [span_exact hkx hX, span_exact hky hY, zeroAt_exact hkx hlx.1, zeroAt_exact hky hly.1, ea, eb]
  rw [unf]
  constructor
  · rintro ⟨f1, f2, f3⟩
    have har : 0 ≤ ar ∧ ar < h := by rw [er]; omega
    have hac : 0 ≤ ac ∧ ac < w := by rw [ec]; omega
    obtain ⟨g1, e1, r1, c1, W1⟩ := axes_ok h w ar ac har hac
    have zip_mem : ∀ q ∈ (x :: xs').zip (y :: ys'), q.1 ∈ x :: xs' ∧ q.2 ∈ y :: ys' := fun q hq =>
      ⟨(List.of_mem_zip hq).1, (List.of_mem_zip hq).2⟩
    obtain ⟨g2, e2, r2, c2, W2⟩ := bars_ok (X := place .exact kx ⟨lx, hx⟩ w) (Y := place .exact ky ⟨ly, hy⟩ h)
      har ((x :: xs').zip (y :: ys')) g1 r1 c1 (by
        intro q hq
        obtain ⟨hq1, hq2⟩ := zip_mem q hq
        obtain ⟨p1, _, _⟩ := place_floor hkx w1 w2 (hlx.2 _ hq1).1 (hlx.2 _ hq1).2
        obtain ⟨p2, a2, b2⟩ := place_floor hky h1 h2 (hly.2 _ hq2).1 (hly.2 _ hq2).2
        exact ⟨_, _, p1, p2, by omega, by omega⟩)
    refine ⟨g2, ?_, r2, c2, fun r c a1 a2 a3 a4 => ?_⟩
    · rw [toInt_ok.mpr ⟨rfl, f1⟩]
      simp only [Out.bind_ok]
      rw [toInt_ok.mpr ⟨rfl, f2⟩, toInt_ok.mpr ⟨rfl, f3⟩]
      simp only [Out.bind_ok]
      rw [clamp_ok.mpr ⟨by omega, er⟩, clamp_ok.mpr ⟨by omega, ec⟩]
      simp only [Out.bind_ok]
      rw [e1]
      simp only [Out.bind_ok]
      rw [e2]
      rfl
    · obtain ⟨P, Q⟩ := W2 r c a1 a2 a3 a4
      have same : (∃ q ∈ (x :: xs').zip (y :: ys'), ⌊(q.1 - lx) / (hx - lx) * ((w : ℚ) - 1)⌋ = c ∧
            h - 1 - ⌊(q.2 - ly) / (hy - ly) * ((h : ℚ) - 1)⌋ ≤ r ∧ r < ar) ↔
          ∃ p ∈ (x :: xs').zip (y :: ys'), place .exact kx ⟨lx, hx⟩ w p.1 = .ok c ∧
            ∃ b, place .exact ky ⟨ly, hy⟩ h p.2 = .ok b ∧ h - 1 - b ≤ r ∧ r < ar := by
        constructor
        · rintro ⟨q, hq, h3, h4⟩
          obtain ⟨hq1, hq2⟩ := zip_mem q hq
          obtain ⟨p1, _, _⟩ := place_floor hkx w1 w2 (hlx.2 _ hq1).1 (hlx.2 _ hq1).2
          obtain ⟨p2, _, _⟩ := place_floor hky h1 h2 (hly.2 _ hq2).1 (hly.2 _ hq2).2
          exact ⟨q, hq, by rw [p1, h3], _, p2, h4⟩
        · rintro ⟨q, hq, h3, b', hb', h4⟩
          obtain ⟨hq1, hq2⟩ := zip_mem q hq
          obtain ⟨p1, _, _⟩ := place_floor hkx w1 w2 (hlx.2 _ hq1).1 (hlx.2 _ hq1).2
          obtain ⟨p2, _, _⟩ := place_floor hky h1 h2 (hly.2 _ hq2).1 (hly.2 _ hq2).2
          rw [p1] at h3
          rw [p2] at hb'
          cases h3
          cases hb'
          exact ⟨q, hq, rfl, h4⟩
      rw [same]
      exact ⟨P, fun hn => by rw [Q hn]; exact W1 r c a1 a2 a3 a4⟩
  · intro hf
    unfold Fits at hf
    by_cases f1 : -2147483648 ≤ a ∧ a < 2147483648
    · rw [toInt_ok.mpr ⟨rfl, f1⟩]
      simp only [Out.bind_ok]
      by_cases f2 : -2147483648 ≤ (h : ℤ) - 1 - a ∧ (h : ℤ) - 1 - a < 2147483648
      · rw [toInt_ok.mpr ⟨rfl, f2⟩]
        simp only [Out.bind_ok]
        have : toInt b = .ub := by unfold toInt; rw [if_neg]; tauto
        rw [this]
        rfl
      · have : toInt ((h : ℤ) - 1 - a) = .ub := by unfold toInt; rw [if_neg f2]
        rw [this]
        rfl
    · have : toInt a = .ub := by unfold toInt; rw [if_neg f1]
      rw [this]
      rfl

end NPE.Chart
