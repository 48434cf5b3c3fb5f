import Verif.Props.Route

/-
C11 beyond well-formed rectangles: the last row, and inverted rectangles (which the constructor
accepts, C12).
-/

namespace NPE.Props

open NPE.Spec

/-- Iteration does not leave a rectangle that reaches row 32767. -/
theorem next_stays {gs : List CoordGrid} {k : Nat} {g : CoordGrid} (hk : gs[k]? = some g) (hg : 32767 ≤ g.hi.row)
    (it : McastIter) (h : it.idx ≤ k) : (it.next gs).idx ≤ k := by
  unfold McastIter.next
  split
  · exact h
  · rename_i g1 h1
    split
    · exact h
    · dsimp only
      split
      · rename_i hgt
        have hne : it.idx ≠ k := by
          intro e
          rw [e, hk] at h1
          cases h1
          unfold toI16 at hgt
          dsimp only at hgt
          split at hgt <;> omega
        split
        · dsimp only; omega
        · dsimp only; omega
      · exact h

/-- **C11**, the last row: iterating over a destination with a rectangle that reaches row 32767,
the largest 16-bit number, never ends, however many steps are made. -/
theorem C11_last_row (gs : List CoordGrid) (g : CoordGrid) (hg : g ∈ gs) (h : 32767 ≤ g.hi.row) :
    (∀ fuel, mcastCollect gs fuel (mcastBegin gs) = .diverge) ∧ mcastCoords gs = .diverge := by
  obtain ⟨k, hk⟩ := List.getElem?_of_mem hg
  have hlen : k < gs.length := (List.getElem?_eq_some_iff.mp hk).1
  have key : ∀ fuel (it : McastIter), it.idx ≤ k → mcastCollect gs fuel it = .diverge := by
    intro fuel
    induction fuel with
    | zero => intro it _; rfl
    | succ n ih =>
      intro it hit
      unfold mcastCollect
      have hend : (mcastEnd gs).idx = gs.length := by
        unfold mcastEnd McastIter.mk'
        rw [List.getElem?_eq_none (Nat.le_refl _)]
      have : it.ne gs (mcastEnd gs) = true := by
        unfold McastIter.ne
        rw [hend]
        simp only [ge_iff_le, Nat.le_refl, decide_true, Bool.or_true, if_true, bne_iff_ne, ne_eq]
        omega
      rw [if_pos this, ih _ (next_stays hk h it hit)]
      rfl
  have hb : (mcastBegin gs).idx ≤ k := by
    cases gs with
    | nil => simp at hg
    | cons a l => exact Nat.zero_le _
  exact ⟨fun fuel => key fuel _ hb, key _ _ hb⟩

/-- The rectangle that is visited for one with the corners of `g`: the start, and the end or,
in a dimension in which the end comes first, the start again. -/
def widened (g : CoordGrid) : CoordGrid :=
  ⟨g.lo, { g.hi with row := max g.lo.row g.hi.row, col := max g.lo.col g.hi.col }⟩

/-- Corners are 16-bit numbers, rows below the last one. -/
structure Corners (g : CoordGrid) : Prop where
  rlo : -32768 ≤ g.lo.row ∧ g.lo.row < 32767
  rhi : g.hi.row < 32767
  clo : -32768 ≤ g.lo.col ∧ g.lo.col ≤ 32767
  chi : g.hi.col ≤ 32767

theorem widened_ok {g : CoordGrid} (h : Corners g) : RectOk (widened g) := by
  obtain ⟨⟨h1, h2⟩, h3, ⟨h4, h5⟩, h6⟩ := h
  constructor <;> simp only [widened] <;> omega

/-- Inside of the rectangle or beyond all rectangles. -/
def Within (gs : List CoordGrid) (it : McastIter) : Prop :=
  ∀ g, gs[it.idx]? = some g → (g.lo.row ≤ it.pos.row ∧ it.pos.row ≤ max g.lo.row g.hi.row) ∧
    (g.lo.col ≤ it.pos.col ∧ it.pos.col ≤ max g.lo.col g.hi.col)

theorem within_start {gs : List CoordGrid} {i : Nat} {c : Coord} (h : ∀ g, gs[i]? = some g → c = g.lo) :
    Within gs ⟨c, i⟩ := by
  intro g hg
  rw [h g hg]
  dsimp only
  omega

theorem toI16_succ {n : Int} (h1 : -32768 ≤ n) (h2 : n < 32767) : toI16 (n + 1) = n + 1 := by
  unfold toI16
  dsimp only
  split <;> omega

theorem next_widened {gs : List CoordGrid} (hok : ∀ g ∈ gs, Corners g) {it : McastIter} (h : Within gs it) :
    it.next gs = it.next (gs.map widened) ∧ Within gs (it.next gs) := by
  unfold McastIter.next
  rw [List.getElem?_map, List.getElem?_map]
  cases hg : gs[it.idx]? with
  | none => exact ⟨rfl, h⟩
  | some g =>
    obtain ⟨⟨r1, r2⟩, c1, c2⟩ := h g hg
    obtain ⟨⟨a1, a2⟩, a3, ⟨a4, a5⟩, a6⟩ := hok g (List.mem_of_getElem? hg)
    have hrow : toI16 (it.pos.row + 1) = it.pos.row + 1 := toI16_succ (by omega) (by omega)
    dsimp only [Option.map_some, widened]
    by_cases hc : it.pos.col < g.hi.col
    · rw [if_pos hc, if_pos (show it.pos.col < max g.lo.col g.hi.col by omega)]
      refine ⟨rfl, ?_⟩
      intro g' hg'
      rw [hg] at hg'
      cases hg'
      have : toI16 (it.pos.col + 1) = it.pos.col + 1 := toI16_succ (by omega) (by omega)
      dsimp only
      rw [this]
      omega
    · rw [if_neg hc, if_neg (show ¬ it.pos.col < max g.lo.col g.hi.col by omega), hrow]
      by_cases hr : it.pos.row + 1 > g.hi.row
      · rw [if_pos hr, if_pos (show it.pos.row + 1 > max g.lo.row g.hi.row by omega)]
        cases hn : gs[it.idx + 1]? with
        | none =>
          refine ⟨rfl, ?_⟩
          intro g' hg'
          rw [hn] at hg'
          cases hg'
        | some g1 =>
          refine ⟨rfl, within_start fun g' hg' => ?_⟩
          rw [hn] at hg'
          cases hg'
          rfl
      · rw [if_neg hr, if_neg (show ¬ it.pos.row + 1 > max g.lo.row g.hi.row by omega)]
        refine ⟨rfl, ?_⟩
        intro g' hg'
        rw [hg] at hg'
        cases hg'
        dsimp only
        omega

/-- **C11**, all rectangles: with 16-bit corners and rows below 32767, what is visited are the
cores of the widened rectangles.  (For a well-formed rectangle this is the rectangle.) -/
theorem C11_visited (gs : List CoordGrid) (hok : ∀ g ∈ gs, Corners g) :
    mcastCoords gs = .ok (gs.flatMap fun g => cells (widened g)) := by
  have key : ∀ fuel (it : McastIter), Within gs it →
      mcastCollect gs fuel it = mcastCollect (gs.map widened) fuel it := by
    intro fuel
    induction fuel with
    | zero => intro it _; rfl
    | succ n ih =>
      intro it hit
      obtain ⟨e, hw⟩ := next_widened hok hit
      have hend : (mcastEnd gs) = mcastEnd (gs.map widened) := by
        unfold mcastEnd McastIter.mk'
        rw [List.length_map, List.getElem?_eq_none (Nat.le_refl _), List.getElem?_eq_none (by simp)]
      have hne : it.ne gs (mcastEnd gs) = it.ne (gs.map widened) (mcastEnd (gs.map widened)) := by
        rw [hend]
        unfold McastIter.ne
        rw [List.length_map]
      unfold mcastCollect
      rw [hne, ih _ hw, e]
  have hb : Within gs (mcastBegin gs) := by
    cases gs with
    | nil => intro g hg; simp at hg
    | cons a l =>
      apply within_start
      intro g hg
      simp only [List.getElem?_cons_zero, Option.some.injEq] at hg
      rw [← hg]
  have hbeq : mcastBegin gs = mcastBegin (gs.map widened) := by
    cases gs with
    | nil => rfl
    | cons a l => rfl
  have hfuel : mcastFuel gs = mcastFuel (gs.map widened) := by
    unfold mcastFuel
    clear key hb hbeq hok
    induction gs with
    | nil => rfl
    | cons a l ih =>
      rw [List.map_cons, List.foldr_cons, List.foldr_cons, ih]
      have e1 : max a.lo.row (max a.lo.row a.hi.row) = max a.lo.row a.hi.row := by omega
      have e2 : max a.lo.col (max a.lo.col a.hi.col) = max a.lo.col a.hi.col := by omega
      simp only [widened, e1, e2]
  have := (C11_enumeration (gs.map widened) (by
    intro g hg
    obtain ⟨g0, h0, rfl⟩ := List.mem_map.mp hg
    exact widened_ok (hok g0 h0))).1
  unfold mcastCoords at this ⊢
  rw [key _ _ hb, hfuel, hbeq, this, List.flatMap_map]

/-- **C11**, inverted rectangles: a destination with corners (3,1) and (1,2), which the
constructor accepts (C12), is visited as the two cores of row 3, one of which is a corner and
none of which lies in rows 1 and 2, while its size is said to be 2^64 - 2. -/
theorem C11_inverted :
    mkMcast ⟨0, 3, 1⟩ ⟨0, 1, 2⟩ = .ok [⟨⟨0, 3, 1⟩, ⟨0, 1, 2⟩⟩] ∧
    mcastCoords [⟨⟨0, 3, 1⟩, ⟨0, 1, 2⟩⟩] = .ok [⟨0, 3, 1⟩, ⟨0, 3, 2⟩] ∧
    mcastGridSize [⟨⟨0, 3, 1⟩, ⟨0, 1, 2⟩⟩] = 18446744073709551614 := by
  refine ⟨by decide +kernel, by decide +kernel, by decide +kernel⟩

/-- A destination with one row only, the last one (cf. `C11_last_row`). -/
example : mcastCoords [⟨⟨0, 1, 1⟩, ⟨0, 1, 1⟩⟩, ⟨⟨0, 32767, 1⟩, ⟨0, 32767, 1⟩⟩] = .diverge := by decide +kernel

/-- cf. `C11_visited`: the second rectangle is inverted in both dimensions. -/
example : mcastCoords [⟨⟨0, 3, 1⟩, ⟨0, 1, 2⟩⟩, ⟨⟨0, 7, 7⟩, ⟨0, 5, 5⟩⟩] = .ok [⟨0, 3, 1⟩, ⟨0, 3, 2⟩, ⟨0, 7, 7⟩] := by
  rw [C11_visited _ (by
    intro g hg
    simp only [List.mem_cons, List.not_mem_nil, or_false] at hg
    rcases hg with rfl | rfl <;> constructor <;> decide)]
  decide +kernel

end NPE.Props
