import Verif.Proofs.Route

/- Helper lemmas about multicast routes and multicast enumeration. -/

namespace NPE
open Spec

theorem mem_span {a b x : Int} : x ∈ span a b ↔ a ≤ x ∧ x ≤ b := by
  unfold span
  simp only [List.mem_map, List.mem_range]
  constructor
  · rintro ⟨k, hk, rfl⟩; omega
  · rintro ⟨h1, h2⟩; exact ⟨(x - a).toNat, by omega, by omega⟩

theorem intRange_eq_span (a b : Int) : Device.intRange a b = span a b := by
  unfold Device.intRange span
  rw [show b - a + 1 = b + 1 - a by ring]

theorem span_nodup (a b : Int) : (span a b).Nodup := by
  unfold span
  apply List.Nodup.map_on _ List.nodup_range
  intro x _ y _ h; omega

theorem span_length (a b : Int) : (span a b).length = (b + 1 - a).toNat := by simp [span]

theorem span_cons {a b : Int} (h : a ≤ b) : span a b = a :: span (a + 1) b := by
  unfold span
  obtain ⟨n, hn⟩ : ∃ n, (b + 1 - a).toNat = n + 1 := ⟨(b + 1 - a).toNat - 1, by omega⟩
  rw [hn, show (b + 1 - (a + 1)).toNat = n by omega, List.range_succ_eq_map, List.map_cons,
    List.map_map]
  congr 1
  · simp
  · apply List.map_congr_left; intro k _; simp; ring

theorem span_empty {a b : Int} (h : b < a) : span a b = [] := by
  unfold span; rw [show (b + 1 - a).toNat = 0 by omega]; rfl

theorem mem_cells {g : CoordGrid} {c : Coord} : c ∈ cells g ↔ InRect g c := by
  unfold cells InRect
  simp only [List.mem_flatMap, List.mem_map, mem_span]
  constructor
  · rintro ⟨r, hr, k, hk, rfl⟩; exact ⟨rfl, hr, hk⟩
  · rintro ⟨h1, h2, h3⟩
    exact ⟨c.row, h2, c.col, h3, by rw [← h1]⟩

theorem cells_nodup (g : CoordGrid) : (cells g).Nodup := by
  unfold cells
  rw [List.nodup_flatMap]
  constructor
  · intro r _
    apply List.Nodup.map_on _ (span_nodup _ _)
    intro x _ y _ h; simpa using h
  · apply List.Pairwise.imp _ (span_nodup g.lo.row g.hi.row)
    intro a b hab x h1 h2
    simp only [List.mem_map] at h1 h2
    obtain ⟨_, _, rfl⟩ := h1
    obtain ⟨_, _, h⟩ := h2
    simp at h
    exact hab h.1.symm

theorem cells_length (g : CoordGrid) :
    (cells g).length = (g.hi.row + 1 - g.lo.row).toNat * (g.hi.col + 1 - g.lo.col).toNat := by
  unfold cells
  have : ∀ l : List Int, (l.flatMap fun r => (span g.lo.col g.hi.col).map fun c =>
      (⟨g.lo.dev, r, c⟩ : Coord)).length = l.length * (g.hi.col + 1 - g.lo.col).toNat := by
    intro l
    induction l with
    | nil => simp
    | cons a l ih => rw [List.flatMap_cons, List.length_append, ih]; simp [span_length]; ring
  rw [this, span_length]

/-! ### enumeration -/

theorem toI16_id {n : Int} (h1 : -32768 ≤ n) (h2 : n ≤ 32767) : toI16 n = n := by
  unfold toI16
  simp only
  split_ifs with h <;> omega

theorem mcastEnd_idx (gs : List CoordGrid) : (mcastEnd gs).idx = gs.length := by
  unfold mcastEnd McastIter.mk'
  simp

theorem iter_ne_end (gs : List CoordGrid) (it : McastIter) :
    it.ne gs (mcastEnd gs) = (it.idx != gs.length) := by
  unfold McastIter.ne
  rw [mcastEnd_idx]
  simp

/-- Prepend the visited coordinates. -/
def prep (l : List Coord) (o : Out (List Coord)) : Out (List Coord) := o >>= fun r => .ok (l ++ r)

theorem prep_prep (a b : List Coord) (o) : prep a (prep b o) = prep (a ++ b) o := by
  cases o <;> simp [prep]

theorem collect_succ (gs : List CoordGrid) (fuel : Nat) (it : McastIter) (h : it.idx ≠ gs.length) :
    mcastCollect gs (fuel + 1) it = prep [it.pos] (mcastCollect gs fuel (it.next gs)) := by
  rw [mcastCollect, iter_ne_end]
  simp only [bne_iff_ne, ne_eq, h, not_false_eq_true, if_true]
  rfl

theorem collect_row (gs : List CoordGrid) (i : Nat) (g : CoordGrid) (hg : gs[i]? = some g)
    (hok : RectOk g) (d r : Int) : ∀ (n fuel : Nat) (c : Int), g.lo.col ≤ c → c + n = g.hi.col →
    mcastCollect gs (n + 1 + fuel) ⟨⟨d, r, c⟩, i⟩ =
      prep ((span c g.hi.col).map fun c => ⟨d, r, c⟩)
        (mcastCollect gs fuel (McastIter.next gs ⟨⟨d, r, g.hi.col⟩, i⟩)) := by
  have hi : i ≠ gs.length := by
    have := (List.getElem?_eq_some_iff.mp hg).1; omega
  intro n
  induction n with
  | zero =>
    intro fuel c h1 h2
    have : c = g.hi.col := by omega
    subst this
    rw [show 0 + 1 + fuel = fuel + 1 by omega, collect_succ _ _ _ hi, span_cons (le_refl _),
      span_empty (by omega)]
    rfl
  | succ n ih =>
    intro fuel c h1 h2
    rw [show n + 1 + 1 + fuel = (n + 1 + fuel) + 1 by omega, collect_succ _ _ _ hi]
    have hnext : McastIter.next gs ⟨⟨d, r, c⟩, i⟩ = ⟨⟨d, r, c + 1⟩, i⟩ := by
      have h3 := hok.chi
      have h4 := hok.clo
      simp only [McastIter.next, hg]
      rw [if_pos (by omega), toI16_id (by omega) (by omega)]
    rw [hnext, ih fuel (c + 1) (by omega) (by omega), prep_prep]
    congr 1
    rw [span_cons (show c ≤ g.hi.col by omega)]
    rfl

/-- Where the iterator stands when a rectangle is exhausted. -/
def afterGrid (gs : List CoordGrid) (i : Nat) (g : CoordGrid) (d : Int) : McastIter :=
  match gs[i + 1]? with
  | some g' => ⟨g'.lo, i + 1⟩
  | none => ⟨⟨d, g.hi.row + 1, g.lo.col⟩, i + 1⟩

theorem collect_grid (gs : List CoordGrid) (i : Nat) (g : CoordGrid) (hg : gs[i]? = some g)
    (hok : RectOk g) (d : Int) : ∀ (m fuel : Nat) (r : Int), g.lo.row ≤ r → r + m = g.hi.row →
    mcastCollect gs ((m + 1) * (g.hi.col + 1 - g.lo.col).toNat + fuel) ⟨⟨d, r, g.lo.col⟩, i⟩ =
      prep ((span r g.hi.row).flatMap fun r => (span g.lo.col g.hi.col).map fun c => ⟨d, r, c⟩)
        (mcastCollect gs fuel (afterGrid gs i g d)) := by
  have hc := hok.cols
  obtain ⟨w, hw⟩ : ∃ w : Nat, g.lo.col + w = g.hi.col := ⟨(g.hi.col - g.lo.col).toNat, by omega⟩
  have hw' : (g.hi.col + 1 - g.lo.col).toNat = w + 1 := by omega
  intro m
  induction m with
  | zero =>
    intro fuel r h1 h2
    have : r = g.hi.row := by omega
    subst this
    rw [hw', show (0 + 1) * (w + 1) + fuel = w + 1 + fuel by ring,
      collect_row gs i g hg hok d g.hi.row w fuel g.lo.col (le_refl _) hw,
      span_cons (le_refl g.hi.row), span_empty (show g.hi.row < g.hi.row + 1 by omega)]
    have hnext : McastIter.next gs ⟨⟨d, g.hi.row, g.hi.col⟩, i⟩ = afterGrid gs i g d := by
      have h3 := hok.rhi
      have h4 := hok.rlo
      have h5 := hok.rows
      simp only [McastIter.next, hg, lt_irrefl, if_false]
      rw [toI16_id (by omega) (by omega), if_pos (by omega)]
      rfl
    rw [hnext]
    simp
  | succ m ih =>
    intro fuel r h1 h2
    rw [hw'] at ih ⊢
    rw [show (m + 1 + 1) * (w + 1) + fuel = w + 1 + ((m + 1) * (w + 1) + fuel) by ring,
      collect_row gs i g hg hok d r w _ g.lo.col (le_refl _) hw]
    have hnext : McastIter.next gs ⟨⟨d, r, g.hi.col⟩, i⟩ = ⟨⟨d, r + 1, g.lo.col⟩, i⟩ := by
      have h3 := hok.rhi
      have h4 := hok.rlo
      simp only [McastIter.next, hg, lt_irrefl, if_false]
      rw [toI16_id (by omega) (by omega), if_neg (by omega)]
    rw [hnext, ih fuel (r + 1) (by omega) (by omega), prep_prep]
    congr 1
    rw [span_cons (show r ≤ g.hi.row by omega)]
    rfl

theorem collect_all (gs : List CoordGrid) (hok : ∀ g ∈ gs, RectOk g) :
    ∀ (n i fuel : Nat) (p : Coord), i + n = gs.length →
    (∀ g, gs[i]? = some g → p = g.lo) →
    ((gs.drop i).flatMap cells).length < fuel →
    mcastCollect gs fuel ⟨p, i⟩ = .ok ((gs.drop i).flatMap cells) := by
  intro n
  induction n with
  | zero =>
    intro i fuel p h hp hf
    obtain ⟨f, rfl⟩ : ∃ f, fuel = f + 1 := ⟨fuel - 1, by omega⟩
    rw [mcastCollect, iter_ne_end]
    have : i = gs.length := by omega
    subst this
    simp
  | succ n ih =>
    intro i fuel p h hp hf
    have hi : i < gs.length := by omega
    have hg : gs[i]? = some gs[i] := by simp [hi]
    have hgo := hok gs[i] (List.getElem_mem hi)
    have hp' := hp _ hg
    rw [hp']
    have hd : gs.drop i = gs[i] :: gs.drop (i + 1) := List.drop_eq_getElem_cons hi
    rw [hd, List.flatMap_cons] at hf ⊢
    rw [List.length_append, cells_length] at hf
    have hrr := hgo.rows
    obtain ⟨m, hm⟩ : ∃ m : Nat, gs[i].lo.row + m = gs[i].hi.row :=
      ⟨(gs[i].hi.row - gs[i].lo.row).toNat, by omega⟩
    rw [show (gs[i].hi.row + 1 - gs[i].lo.row).toNat = m + 1 by omega] at hf
    obtain ⟨f, rfl⟩ : ∃ f, fuel = (m + 1) * (gs[i].hi.col + 1 - gs[i].lo.col).toNat + f :=
      ⟨fuel - (m + 1) * (gs[i].hi.col + 1 - gs[i].lo.col).toNat, by omega⟩
    have hlo : gs[i].lo = ⟨gs[i].lo.dev, gs[i].lo.row, gs[i].lo.col⟩ := rfl
    rw [hlo, collect_grid gs i gs[i] hg hgo gs[i].lo.dev m f gs[i].lo.row (le_refl _) hm]
    have hnxt : mcastCollect gs f (afterGrid gs i gs[i] gs[i].lo.dev) =
        .ok ((gs.drop (i + 1)).flatMap cells) := by
      unfold afterGrid
      cases hgi : gs[i + 1]? with
      | some g' => exact ih (i + 1) f _ (by omega) (by intro g hg; rw [hgi] at hg; cases hg; rfl) (by omega)
      | none => exact ih (i + 1) f _ (by omega) (by intro g hg; rw [hgi] at hg; cases hg) (by omega)
    rw [hnxt]
    rfl

theorem mcastFuel_gt (gs : List CoordGrid) (hok : ∀ g ∈ gs, RectOk g) :
    (gs.flatMap cells).length < mcastFuel gs := by
  induction gs with
  | nil => simp [mcastFuel]
  | cons g gs ih =>
    have ih' := ih (fun x hx => hok x (by simp [hx]))
    have hg := hok g (by simp)
    have h1 := hg.rows
    have h2 := hg.cols
    have h3 : mcastFuel (g :: gs) = ((max g.lo.row g.hi.row - g.lo.row + 1) *
      (max g.lo.col g.hi.col - g.lo.col + 1)).toNat + mcastFuel gs := rfl
    rw [h3, List.flatMap_cons, List.length_append, cells_length, max_eq_right h1, max_eq_right h2]
    have h4 : ((g.hi.row - g.lo.row + 1) * (g.hi.col - g.lo.col + 1)).toNat =
        (g.hi.row + 1 - g.lo.row).toNat * (g.hi.col + 1 - g.lo.col).toNat := by
      rw [Int.toNat_mul (by omega) (by omega)]
      congr 2 <;> ring
    omega

theorem mcastCoords_eq (gs : List CoordGrid) (hok : ∀ g ∈ gs, RectOk g) :
    mcastCoords gs = .ok (gs.flatMap cells) := by
  unfold mcastCoords
  have hb : mcastBegin gs = ⟨(mcastBegin gs).pos, 0⟩ ∧ ∀ g, gs[0]? = some g → (mcastBegin gs).pos = g.lo := by
    cases gs with
    | nil => simp [mcastBegin, mcastEnd, McastIter.mk']
    | cons g gs => simp [mcastBegin, McastIter.mk']
  rw [hb.1]
  have := collect_all gs hok gs.length 0 (mcastFuel gs) (mcastBegin gs).pos (by omega) hb.2
    (by simpa using mcastFuel_gt gs hok)
  simpa using this

theorem gridSize_eq (gs : List CoordGrid) (hok : ∀ g ∈ gs, RectOk g)
    (hsz : (gs.flatMap cells).length < 18446744073709551616) :
    mcastGridSize gs = (gs.flatMap cells).length := by
  have key : ∀ (gs : List CoordGrid) (t : Nat), (∀ g ∈ gs, RectOk g) →
      t + (gs.flatMap cells).length < 18446744073709551616 →
      gs.foldl (fun (total : Nat) g => (((total : Int) + (g.hi.row - g.lo.row + 1) * (g.hi.col - g.lo.col + 1)) %
        18446744073709551616).toNat) t = t + (gs.flatMap cells).length := by
    intro gs
    induction gs with
    | nil => intro t _ _; simp
    | cons g gs ih =>
      intro t hok ht
      have hg := hok g (by simp)
      have h1 := hg.rows
      have h2 := hg.cols
      rw [List.flatMap_cons, List.length_append] at ht ⊢
      have h4 : (g.hi.row - g.lo.row + 1) * (g.hi.col - g.lo.col + 1) = ((cells g).length : Int) := by
        rw [cells_length]
        push_cast
        rw [Int.toNat_of_nonneg (by omega), Int.toNat_of_nonneg (by omega)]
        ring
      rw [List.foldl_cons, h4]
      have h5 : (((t : Int) + (cells g).length) % 18446744073709551616).toNat = t + (cells g).length := by
        rw [Int.emod_eq_of_lt (by omega) (by omega)]; omega
      rw [h5, ih _ (fun x hx => hok x (by simp [hx])) (by omega)]
      omega
  have := key gs 0 hok (by rw [Nat.zero_add]; exact hsz)
  rw [Nat.zero_add] at this
  exact this

/-! ### multicast routes -/

namespace Device

theorem mem_insertAll (ls : List Int) : ∀ (s : List Int) (x : Int),
    x ∈ insertAll s ls ↔ x ∈ s ∨ x ∈ ls := by
  induction ls with
  | nil => simp [insertAll]
  | cons l ls ih =>
    intro s x
    have h : insertAll s (l :: ls) = insertAll (if l ∈ s then s else s ++ [l]) ls := rfl
    rw [h, ih]
    split_ifs with hl
    · simp only [List.mem_cons]
      constructor
      · tauto
      · rintro (h | rfl | h) <;> tauto
    · simp only [List.mem_append, List.mem_singleton, List.mem_cons, or_assoc]
      simp

theorem insertAll_nodup (ls : List Int) : ∀ (s : List Int), s.Nodup → (insertAll s ls).Nodup := by
  induction ls with
  | nil => intro s h; exact h
  | cons l ls ih =>
    intro s hs
    have h : insertAll s (l :: ls) = insertAll (if l ∈ s then s else s ++ [l]) ls := rfl
    rw [h]
    apply ih
    split_ifs with hl
    · exact hs
    · exact List.Nodup.append hs (by simp) (by simpa using hl)

/-- Folding routes into the set of links. -/
theorem fold_routes {α : Type} (route : α → Out (List Int)) (rs : α → List Int) (xs : List α)
    (h : ∀ x ∈ xs, route x = .ok (rs x)) : ∀ s : List Int, s.Nodup → ∃ u,
    Out.foldlM (fun set x => route x >>= fun r => pure (insertAll set r)) s xs = .ok u ∧
    u.Nodup ∧ ∀ i, i ∈ u ↔ i ∈ s ∨ ∃ x ∈ xs, i ∈ rs x := by
  induction xs with
  | nil => intro s hs; exact ⟨s, rfl, hs, by simp⟩
  | cons x xs ih =>
    intro s hs
    obtain ⟨u, h1, h2, h3⟩ := ih (fun y hy => h y (by simp [hy])) (insertAll s (rs x))
      (insertAll_nodup _ _ hs)
    refine ⟨u, ?_, h2, ?_⟩
    · rw [Out.foldlM_cons, h x (by simp), Out.bind_ok]
      exact h1
    · intro i
      rw [h3, mem_insertAll]
      simp only [List.mem_cons, exists_eq_or_imp, or_assoc]

end Device
end NPE

namespace NPE
open Spec
namespace Device
variable (dev : Device)

theorem legs_dst_dev (d d' : Int) (noc : Noc) (s x : Coord) :
    dev.legs d noc s ⟨d', x.row, x.col⟩ = dev.legs d noc s x := by cases noc <;> rfl

theorem multicastRoute_eq (hl : dev.nLinks ≤ 32768) (hchips : 0 < dev.chips)
    (ord : List Int → List Int) (noc : Noc) (s : Coord) (g : CoordGrid)
    (hs : dev.OnG s.row s.col) (hlo : dev.OnG g.lo.row g.lo.col) (hhi : dev.OnG g.hi.row g.hi.col) :
    ∃ u, dev.multicastRoute ord noc s [g] = .ok (ord u) ∧ u.Nodup ∧
      ∀ i, i ∈ u ↔ ∃ x, farEdge noc g x ∧ dev.OnG x.row x.col ∧
        i ∈ (dev.legs 0 noc s x).map fun l => (dev.linkIdx l : Int) := by
  cases noc with
  | noc0 =>
    obtain ⟨u, h1, h2, h3⟩ := fold_routes (fun c => dev.unicastRoute .noc0 s ⟨0, g.hi.row, c⟩)
      (fun c => (dev.legs 0 .noc0 s ⟨0, g.hi.row, c⟩).map fun l => (dev.linkIdx l : Int))
      (intRange g.lo.col g.hi.col) (by
        intro c hc
        rw [intRange_eq_span, mem_span] at hc
        exact dev.unicastRoute_eq hl hchips .noc0 s ⟨0, g.hi.row, c⟩ hs
          ⟨hhi.1, by have := hlo.2; have := hhi.2; show 0 ≤ c ∧ c < _; omega⟩) [] List.nodup_nil
    refine ⟨u, ?_, h2, ?_⟩
    · simp only [multicastRoute, List.length_cons, List.length_nil, zero_add, decide_true,
        Out.assert_true, Out.bind_ok]
      rw [h1]; rfl
    · intro i
      rw [h3]
      simp only [List.not_mem_nil, false_or, intRange_eq_span, mem_span, farEdge]
      constructor
      · rintro ⟨c, hc, hi⟩
        refine ⟨⟨0, g.hi.row, c⟩, ⟨rfl, hc⟩, ⟨hhi.1, ?_⟩, hi⟩
        have := hlo.2; have := hhi.2; show 0 ≤ c ∧ c < _; omega
      · rintro ⟨x, ⟨hx, hc⟩, _, hi⟩
        refine ⟨x.col, hc, ?_⟩
        rw [← hx, legs_dst_dev]; exact hi
  | noc1 =>
    obtain ⟨u, h1, h2, h3⟩ := fold_routes (fun r => dev.unicastRoute .noc1 s ⟨0, r, g.hi.col⟩)
      (fun r => (dev.legs 0 .noc1 s ⟨0, r, g.hi.col⟩).map fun l => (dev.linkIdx l : Int))
      (intRange g.lo.row g.hi.row) (by
        intro c hc
        rw [intRange_eq_span, mem_span] at hc
        exact dev.unicastRoute_eq hl hchips .noc1 s ⟨0, c, g.hi.col⟩ hs
          ⟨by have := hlo.1; have := hhi.1; show 0 ≤ c ∧ c < _; omega, hhi.2⟩) [] List.nodup_nil
    refine ⟨u, ?_, h2, ?_⟩
    · simp only [multicastRoute, List.length_cons, List.length_nil, zero_add, decide_true,
        Out.assert_true, Out.bind_ok]
      rw [h1]; rfl
    · intro i
      rw [h3]
      simp only [List.not_mem_nil, false_or, intRange_eq_span, mem_span, farEdge]
      constructor
      · rintro ⟨c, hc, hi⟩
        refine ⟨⟨0, c, g.hi.col⟩, ⟨rfl, hc⟩, ⟨?_, hhi.2⟩, hi⟩
        have := hlo.1; have := hhi.1; show 0 ≤ c ∧ c < _; omega
      · rintro ⟨x, ⟨hx, hc⟩, _, hi⟩
        refine ⟨x.row, hc, ?_⟩
        rw [← hx, legs_dst_dev]; exact hi

/-- The same link on chip `d`. -/
def onChip (d : Int) (l : LinkAttr) : LinkAttr := ⟨⟨d, l.coord.row, l.coord.col⟩, l.type⟩

/-- Distance of identifiers of chip `d` from those of chip 0. -/
def chipOff (d : Int) : Int := (d.toNat * dev.rows * (dev.cols * 4) : Nat)

theorem linkIdx_onChip (d : Int) (l : LinkAttr) (h0 : l.coord.dev = 0) :
    (dev.linkIdx (onChip d l) : Int) = dev.linkIdx l + dev.chipOff d := by
  unfold linkIdx flatIdx onChip chipOff
  simp only [h0, Int.toNat_zero]
  push_cast; ring

theorem change_eq (hl : dev.nLinks ≤ 32768) (d : Int) (hd : 0 ≤ d ∧ d < dev.chips) :
    ∀ ids : List Int, (∀ i ∈ ids, ∃ l : LinkAttr, dev.On l.coord ∧ l.coord.dev = 0 ∧
      i = dev.linkIdx l) →
    dev.changeRouteDeviceID ids d = .ok (ids.map (· + dev.chipOff d)) := by
  intro ids
  induction ids with
  | nil => intro _; rfl
  | cons i ids ih =>
    intro h
    obtain ⟨l, h1, h2, rfl⟩ := h _ List.mem_cons_self
    have ih' := ih (fun x hx => h x (by simp [hx]))
    unfold changeRouteDeviceID at ih' ⊢
    rw [Out.mapM_cons, (dev.getLinkAttributes_eq _ l).mpr ⟨h1, rfl⟩, Out.bind_ok,
      dev.getLinkID_eq hl ⟨⟨d, l.coord.row, l.coord.col⟩, l.type⟩ ⟨hd, h1.2⟩, Out.bind_ok, ih',
      Out.bind_ok]
    have := dev.linkIdx_onChip d l h2
    unfold onChip at this
    rw [this]; rfl

theorem legs_onChip (d : Int) (noc : Noc) (s x : Coord) :
    (dev.legs 0 noc s x).map (onChip d) = dev.legs d noc s x := by
  cases noc <;> simp [legs, eastLeg, southLeg, northLeg, westLeg, onChip, Function.comp_def]

theorem legs_dev (d : Int) (noc : Noc) (s x : Coord) : ∀ l ∈ dev.legs d noc s x, l.coord.dev = d := by
  intro l hl
  cases noc <;> simp only [legs, eastLeg, southLeg, northLeg, westLeg, List.mem_append,
    List.mem_map] at hl <;> rcases hl with ⟨k, _, rfl⟩ | ⟨k, _, rfl⟩ <;> rfl

theorem base_nLinks (hdev : DeviceOk dev) : dev.base.nLinks ≤ 32768 := by
  have h1 := hdev.ids
  have h2 : 1 * (dev.rows * (dev.cols * 4)) ≤ dev.chips * (dev.rows * (dev.cols * 4)) :=
    Nat.mul_le_mul_right _ hdev.chips_pos
  show 1 * (dev.rows * (dev.cols * 4)) ≤ 32768
  omega

/-- Multicast routes of every device model. -/
theorem route_mcast_eq (hdev : DeviceOk dev) (ord : List Int → List Int)
    (hord : ∀ l, (ord l).Perm l) (noc : Noc) (s : Coord) (g : CoordGrid) (hs : IsCore dev s)
    (hlo : dev.OnG g.lo.row g.lo.col) (hhi : dev.OnG g.hi.row g.hi.col) (hsd : g.lo.dev = s.dev) :
    ∃ ids, dev.route ord noc s (.mcast [g]) = .ok ids ∧ ids.Nodup ∧
      ∀ i, i ∈ ids ↔ ∃ x, farEdge noc g x ∧ dev.OnG x.row x.col ∧
        i ∈ (dev.legs s.dev noc s x).map fun l => (dev.linkIdx l : Int) := by
  unfold route
  cases hm : dev.multichip with
  | false =>
    have h1 := hdev.single hm
    have h0 : s.dev = 0 := by have := hs.1; rw [h1] at this; omega
    simp only [Bool.false_eq_true, if_false, routeSingle]
    obtain ⟨u, hu, hn, hmem⟩ := dev.multicastRoute_eq hdev.ids hdev.chips_pos ord noc s g hs.2 hlo hhi
    refine ⟨ord u, hu, (hord u).nodup_iff.mpr hn, ?_⟩
    intro i
    rw [(hord u).mem_iff, hmem, h0]
  | true =>
    simp only [if_true, Dest.deviceIDs, List.map_cons, List.map_nil, List.length_cons,
      List.length_nil, List.head?_cons, hsd, decide_true, Out.assert_true, Out.bind_ok, routeSingle,
      zero_add]
    obtain ⟨u, hu, hn, hmem⟩ := dev.base.multicastRoute_eq (dev.base_nLinks hdev) (by simp [base])
      ord noc s g hs.2 hlo hhi
    rw [hu, Out.bind_ok]
    have hz : (0 : Int) ≤ 0 ∧ (0 : Int) < dev.chips := ⟨le_refl _, by exact_mod_cast hdev.chips_pos⟩
    have hids : ∀ i ∈ ord u, ∃ l : LinkAttr, dev.On l.coord ∧ l.coord.dev = 0 ∧ i = dev.linkIdx l := by
      intro i hi
      rw [(hord u).mem_iff, hmem] at hi
      obtain ⟨x, hx, hxg, hi⟩ := hi
      simp only [List.mem_map] at hi
      obtain ⟨l, hl, rfl⟩ := hi
      exact ⟨l, dev.legs_on 0 noc s x hz hs.2 hxg l hl, dev.legs_dev 0 noc s x l hl, rfl⟩
    refine ⟨_, dev.change_eq hdev.ids s.dev hs.1 _ hids, ?_, ?_⟩
    · apply List.Nodup.map (fun a b h => by simpa using h)
      exact (hord u).nodup_iff.mpr hn
    · intro i
      simp only [List.mem_map]
      constructor
      · rintro ⟨j, hj, rfl⟩
        rw [(hord u).mem_iff, hmem] at hj
        obtain ⟨x, hx, hxg, hj⟩ := hj
        simp only [List.mem_map] at hj
        obtain ⟨l, hl, rfl⟩ := hj
        refine ⟨x, hx, hxg, onChip s.dev l, ?_, ?_⟩
        · rw [← legs_onChip]; exact List.mem_map_of_mem hl
        · exact dev.linkIdx_onChip s.dev l (dev.legs_dev 0 noc s x l hl)
      · rintro ⟨x, hx, hxg, l, hl, rfl⟩
        rw [← legs_onChip] at hl
        obtain ⟨l0, hl0, rfl⟩ := List.mem_map.mp hl
        refine ⟨dev.linkIdx l0, ?_, (dev.linkIdx_onChip s.dev l0 (dev.legs_dev 0 noc s x l0 hl0)).symm⟩
        rw [(hord u).mem_iff, hmem]
        exact ⟨x, hx, hxg, List.mem_map.mpr ⟨l0, hl0, rfl⟩⟩

/-- Every list of identifiers of on-grid links denotes a list of links. -/
theorem denotes_exists (ids : List Int) (h : ∀ i ∈ ids, ∃ l : LinkAttr, dev.On l.coord ∧
    i = dev.linkIdx l) : ∃ ls, Denotes dev ids ls := by
  induction ids with
  | nil => exact ⟨[], .nil⟩
  | cons i ids ih =>
    obtain ⟨ls, hls⟩ := ih (fun x hx => h x (by simp [hx]))
    obtain ⟨l, h1, h2⟩ := h i (by simp)
    exact ⟨l :: ls, .cons ((dev.getLinkAttributes_eq i l).mpr ⟨h1, h2⟩) hls⟩

theorem denotes_mem {ids : List Int} {ls : List LinkAttr} (h : Denotes dev ids ls) (l : LinkAttr) :
    l ∈ ls ↔ ∃ i ∈ ids, dev.getLinkAttributes i = .ok l := by
  unfold Denotes at h
  induction h with
  | nil => simp
  | cons h1 h2 ih =>
    simp only [List.mem_cons, exists_eq_or_imp, ih]
    constructor
    · rintro (rfl | h)
      · left; exact h1
      · right; exact h
    · rintro (h | h)
      · rw [h1] at h; left; exact (Out.ok.inj h).symm
      · right; exact h

/-- Links of the same NoC towards a nearer row are part of the route to a farther row. -/
theorem legs_noc0_prefix (d : Int) (s a b : Coord) (hc : a.col = b.col)
    (h : ((a.row - s.row) % dev.rows).toNat ≤ ((b.row - s.row) % dev.rows).toNat) :
    ∀ l ∈ dev.legs d .noc0 s a, l ∈ dev.legs d .noc0 s b := by
  intro l hl
  simp only [legs, eastLeg, southLeg, List.mem_append, List.mem_map, List.mem_range, hc] at hl ⊢
  rcases hl with h1 | ⟨k, hk, rfl⟩
  · left; exact h1
  · right; exact ⟨k, by omega, rfl⟩

/-- Identifiers handed out by `getLinkID` are valid. -/
theorem getLinkID_ok (hl : dev.nLinks ≤ 32768) {a : LinkAttr} {i : Int}
    (h : dev.getLinkID a = .ok i) : dev.On a.coord ∧ i = dev.linkIdx a := by
  by_cases ho : dev.On a.coord
  · rw [dev.getLinkID_eq hl a ho] at h; exact ⟨ho, (Out.ok.inj h).symm⟩
  · rw [dev.getLinkID_off hl a ho] at h; cases h

/-- Every identifier in a unicast route is one of chip 0. -/
theorem unicastLoop_ids (hl : dev.nLinks ≤ 32768) (noc : Noc) (er ec : Int) : ∀ (fuel : Nat) (row col : Int)
    (ids : List Int), dev.unicastLoop noc er ec fuel row col = .ok ids →
    ∀ i ∈ ids, ∃ l : LinkAttr, dev.On l.coord ∧ l.coord.dev = 0 ∧ i = dev.linkIdx l := by
  intro fuel
  induction fuel with
  | zero => intro _ _ _ h; cases h
  | succ f ih =>
    intro row col ids h
    have step : ∀ (a : LinkAttr) (r c : Int), a.coord.dev = 0 →
        (dev.getLinkID a >>= fun l => dev.unicastLoop noc er ec f r c >>= fun rest =>
          pure (l :: rest)) = .ok ids →
        ∀ i ∈ ids, ∃ l : LinkAttr, dev.On l.coord ∧ l.coord.dev = 0 ∧ i = dev.linkIdx l := by
      intro a r c ha h
      obtain ⟨l, h1, h2⟩ := Out.bind_eq_ok.mp h
      obtain ⟨rest, h3, h4⟩ := Out.bind_eq_ok.mp h2
      rw [Out.pure_eq, Out.ok.injEq] at h4
      subst h4
      intro i hi
      rcases List.mem_cons.mp hi with rfl | hi
      · obtain ⟨h5, h6⟩ := dev.getLinkID_ok hl h1
        exact ⟨a, h5, ha, h6⟩
      · exact ih _ _ _ h3 i hi
    unfold unicastLoop at h
    cases noc with
    | noc0 =>
      simp only at h
      split_ifs at h with h1 h2
      · exact step _ _ _ rfl h
      · exact step _ _ _ rfl h
      · cases h; simp
    | noc1 =>
      simp only at h
      split_ifs at h with h1 h2
      · exact step _ _ _ rfl h
      · exact step _ _ _ rfl h
      · cases h; simp

/-- Every identifier in a single-chip route is one of chip 0. -/
theorem routeSingle_ids (hl : dev.nLinks ≤ 32768) (ord : List Int → List Int)
    (hord : ∀ l, (ord l).Perm l) (noc : Noc) (s : Coord) (d : Dest) (ids : List Int)
    (h : dev.routeSingle ord noc s d = .ok ids) :
    ∀ i ∈ ids, ∃ l : LinkAttr, dev.On l.coord ∧ l.coord.dev = 0 ∧ i = dev.linkIdx l := by
  have hfold : ∀ {α : Type} (f : α → Coord) (xs : List α) (st u : List Int),
      (∀ i ∈ st, ∃ l : LinkAttr, dev.On l.coord ∧ l.coord.dev = 0 ∧ i = dev.linkIdx l) →
      Out.foldlM (fun set x => dev.unicastRoute noc s (f x) >>= fun r => pure (insertAll set r)) st xs = .ok u →
      ∀ i ∈ u, ∃ l : LinkAttr, dev.On l.coord ∧ l.coord.dev = 0 ∧ i = dev.linkIdx l := by
    intro α f xs
    induction xs with
    | nil => intro st u hst h; cases h; exact hst
    | cons x xs ih =>
      intro st u hst h
      rw [Out.foldlM_cons] at h
      obtain ⟨st', h1, h2⟩ := Out.bind_eq_ok.mp h
      obtain ⟨r, h3, h4⟩ := Out.bind_eq_ok.mp h1
      rw [Out.pure_eq, Out.ok.injEq] at h4
      subst h4
      refine ih _ u ?_ h2
      intro i hi
      rw [mem_insertAll] at hi
      rcases hi with hi | hi
      · exact hst i hi
      · exact dev.unicastLoop_ids hl _ _ _ _ _ _ _ h3 i hi
  unfold routeSingle at h
  cases d with
  | unicast e => exact dev.unicastLoop_ids hl _ _ _ _ _ _ _ h
  | mcast gs =>
    unfold multicastRoute at h
    simp only at h
    obtain ⟨_, _, h⟩ := Out.bind_eq_ok.mp h
    cases gs with
    | nil => cases h
    | cons g gs =>
      cases noc with
      | noc0 =>
        obtain ⟨u, h1, h2⟩ := Out.bind_eq_ok.mp h
        rw [Out.pure_eq, Out.ok.injEq] at h2
        subst h2
        intro i hi
        rw [(hord u).mem_iff] at hi
        exact hfold (fun c => ⟨0, g.hi.row, c⟩) _ [] u (by simp) h1 i hi
      | noc1 =>
        obtain ⟨u, h1, h2⟩ := Out.bind_eq_ok.mp h
        rw [Out.pure_eq, Out.ok.injEq] at h2
        subst h2
        intro i hi
        rw [(hord u).mem_iff] at hi
        exact hfold (fun r => ⟨0, r, g.hi.col⟩) _ [] u (by simp) h1 i hi

end Device
end NPE
