import Verif.Proofs.Stats
import Verif.Proofs.Capacity
import Verif.Proofs.Table
import Mathlib.Algebra.BigOperators.Group.List.Lemmas

/-
Demand grids during a run, and the averages that are computed from them.
-/

namespace NPE
open Spec

/-- Grids with demands that are not negative, the multicast demand of a link being part of its
total demand. -/
structure GoodGrids (dev : Device) (g : Grids) : Prop where
  sized : Sized dev g
  nonneg : GridNonneg g
  part : ∀ (k : Nat) x y, g.link[k]? = some x → g.mcast[k]? = some y → y ≤ x

theorem goodGrids_init (dev : Device) : GoodGrids dev (initGrids dev) := by
  refine ⟨sized_init dev, ⟨?_, ?_, ?_⟩, ?_⟩
  · intro x hx; rw [(List.mem_replicate.mp hx).2]
  · intro x hx; rw [(List.mem_replicate.mp hx).2]
  · intro x hx; rw [(List.mem_replicate.mp hx).2]
  · intro k x y hx hy
    rw [initGrids_link] at hx
    rw [initGrids_mcast] at hy
    split at hx <;> simp_all

/-- Leaving out summands that are not negative does not increase a rounded sum. -/
theorem accum_sublist {fp : FP} {a b : List ℚ} (h : a.Sublist b) (hb : ∀ e ∈ b, 0 ≤ e) {y z : ℚ}
    (hz : fp.f32.Rep z) (hyz : y ≤ z) : accum fp a y ≤ accum fp b z := by
  induction h generalizing y z with
  | slnil => exact hyz
  | cons e _ ih =>
    refine ih (fun x hx => hb x (by simp [hx])) (fp.f32.rep_fl _) ?_
    have : 0 ≤ e := hb e (by simp)
    exact le_trans hyz (fp.f32.le_fl_of_rep hz (by linarith))
  | cons_cons e _ ih =>
    exact ih (fun x hx => hb x (by simp [hx])) (fp.f32.rep_fl _) (fp.f32.mono (by linarith))

theorem contrib_sublist {c c' : TState → List ℚ} (h : ∀ t, (c t).Sublist (c' t)) (ts : List TState) :
    ∀ live : List Nat, (contrib c ts live).Sublist (contrib c' ts live) := by
  intro live
  induction live with
  | nil => exact List.Sublist.refl _
  | cons i live ih =>
    rw [contrib_cons, contrib_cons]
    refine List.Sublist.append ?_ ih
    cases ts[i]? with
    | none => exact List.Sublist.refl _
    | some t => exact h t

theorem mcastC_sublist (fp : FP) (sot curr k : Nat) (t : TState) :
    (mcastC fp sot curr k t).Sublist (linkC fp sot curr k t) := by
  unfold mcastC linkC
  rw [List.replicate_sublist_replicate]
  unfold mcastRoute
  split
  · exact le_rfl
  · simp

theorem goodGrids_rates {fp : FP} {dev : Device} (hT : TableOk fp dev.tbt) {en : Bool} {a b : Nat}
    {g g' : Grids} {ts ts' : List TState} {live : List Nat} (hab : a ≤ b) (hn : live.Nodup)
    (hp : ∀ (i : Nat) t, ts[i]? = some t → 0 ≤ t.params.injectionRate) (hg : GoodGrids dev g)
    (h : computeRates fp dev en a b g ts live = .ok (ts', g')) : GoodGrids dev g' := by
  unfold computeRates at h
  obtain ⟨ts1, h1, h⟩ := Out.bind_eq_ok.mp h
  have w := updateTransferBandwidth_written hn h1
  cases en with
  | false =>
    simp only [Bool.false_eq_true, if_false, Out.ok.injEq, Prod.mk.injEq] at h
    rw [← h.2]; exact hg
  | true =>
    simp only [if_true] at h
    obtain ⟨_, hA, _⟩ := modelCongestion_parts hn h
    have hbw : ∀ i ∈ live, ∀ t, ts1[i]? = some t → 0 ≤ t.bw := by
      intro i hi t ht
      obtain ⟨t0, b, a1, a2, a3⟩ := w.2.2 i hi
      rw [ht] at a3
      rw [Option.some.inj a3]
      exact (tableBw_ok hT a2).1 (hp i t0 a1)
    have he : ∀ i ∈ live, ∀ t, ts1[i]? = some t → 0 ≤ effectiveDemand fp a b t := fun i hi t ht =>
      effectiveDemand_nonneg hab (hbw i hi t ht)
    have hz : ∀ n, ∀ x ∈ List.replicate n (0 : ℚ), 0 ≤ x := by
      intro n x hx; rw [(List.mem_replicate.mp hx).2]
    obtain ⟨l1, l2, l3, c1, c2, c3⟩ := hA
    have S := sized_init dev
    refine ⟨⟨l1.trans S.1, l2.trans S.2.1, l3.trans S.2.2⟩, ⟨?_, ?_, ?_⟩, ?_⟩
    · exact map_get_nonneg c2 (hz _) fun k => contrib_nonneg fun i hi t ht e hx => by
        rw [(List.mem_replicate.mp hx).2]; exact he i hi t ht
    · exact map_get_nonneg c1 (hz _) fun k => contrib_nonneg fun i hi t ht e hx => by
        rw [(List.mem_replicate.mp hx).2]; exact he i hi t ht
    · exact map_get_nonneg c3 (hz _) fun k => contrib_nonneg fun i hi t ht e hx => by
        rw [(List.mem_replicate.mp hx).2]; exact he i hi t ht
    · intro k x y hx hy
      rw [c2 k] at hx
      rw [c3 k] at hy
      rw [initGrids_link] at hx
      rw [initGrids_mcast] at hy
      split at hx
      · rename_i hk
        rw [if_pos hk] at hy
        simp only [Option.map_some, Option.some.injEq] at hx hy
        rw [← hx, ← hy]
        refine accum_sublist (contrib_sublist (mcastC_sublist fp a b k) ts1 live) ?_ fp.f32.rep_zero le_rfl
        exact contrib_nonneg fun i hi t ht e hx => by
          rw [(List.mem_replicate.mp hx).2]; exact he i hi t ht
      · simp at hx

/-! ### Counting links -/

theorem sum_range_ite {M : Type} [AddCommMonoid M] (n k : Nat) (v : M) :
    ((List.range n).map fun (j : Nat) => if j = k then v else 0).sum = if k < n then v else 0 := by
  induction n with
  | zero => simp
  | succ n ih =>
    rw [List.range_succ, List.map_append, List.sum_append, ih]
    simp only [List.map_cons, List.map_nil, List.sum_cons, List.sum_nil, add_zero]
    rcases lt_trichotomy k n with h | rfl | h
    · rw [if_pos h, if_neg (by omega), if_pos (by omega), add_zero]
    · rw [if_neg (by omega), if_pos rfl, if_pos (by omega), zero_add]
    · rw [if_neg (by omega), if_neg (by omega), if_neg (by omega), add_zero]

theorem countP_table (dev : Device) (d : Int) (p : LinkType → Bool) (n : Nat)
    (hp : Device.linkTypes.countP p = n) (hd : d = MESH_DEVICE ∨ (0 ≤ d ∧ d < dev.chips)) :
    dev.linkTable.countP (fun a => Stats.counted d a.coord && p a.type) =
      (if d = MESH_DEVICE then dev.chips else 1) * (dev.rows * (dev.cols * n)) := by
  unfold Device.linkTable
  have inner : ∀ k : Nat, (((List.range dev.rows).flatMap fun (r : Nat) =>
      (List.range dev.cols).flatMap fun (c : Nat) => Device.linkTypes.map fun t =>
        (⟨⟨k, r, c⟩, t⟩ : LinkAttr)).countP fun a => Stats.counted d a.coord && p a.type) =
      if d = MESH_DEVICE ∨ d = k then dev.rows * (dev.cols * n) else 0 := by
    intro k
    have h1 : ∀ r c : Nat, ((Device.linkTypes.map fun t => (⟨⟨k, r, c⟩, t⟩ : LinkAttr)).countP
        fun a => Stats.counted d a.coord && p a.type) = if d = MESH_DEVICE ∨ d = k then n else 0 := by
      intro r c
      rw [List.countP_map]
      by_cases hk : d = MESH_DEVICE ∨ d = k
      · rw [if_pos hk, ← hp]
        congr 1
        funext t
        simp [Stats.counted, hk]
      · rw [if_neg hk, List.countP_eq_zero]
        intro t _
        simp only [Function.comp, Stats.counted, Bool.and_eq_true, Bool.or_eq_true, decide_eq_true_eq]
        exact fun hc => hk hc.1
    rw [List.countP_flatMap]
    have h2 : ∀ r : Nat, (((List.range dev.cols).flatMap fun (c : Nat) => Device.linkTypes.map fun t =>
        (⟨⟨k, r, c⟩, t⟩ : LinkAttr)).countP fun a => Stats.counted d a.coord && p a.type) =
        if d = MESH_DEVICE ∨ d = k then dev.cols * n else 0 := by
      intro r
      rw [List.countP_flatMap]
      have : (List.countP (fun a : LinkAttr => Stats.counted d a.coord && p a.type) ∘ fun (c : Nat) =>
          Device.linkTypes.map fun t => (⟨⟨k, r, c⟩, t⟩ : LinkAttr)) =
          fun _ => if d = MESH_DEVICE ∨ d = k then n else 0 := by
        funext c; exact h1 r c
      rw [this]
      split <;> simp
    have : (List.countP (fun a : LinkAttr => Stats.counted d a.coord && p a.type) ∘ fun (r : Nat) =>
        (List.range dev.cols).flatMap fun (c : Nat) => Device.linkTypes.map fun t =>
          (⟨⟨k, r, c⟩, t⟩ : LinkAttr)) =
        fun _ => if d = MESH_DEVICE ∨ d = k then dev.cols * n else 0 := by
      funext r; exact h2 r
    rw [this]
    split <;> simp
  rw [List.countP_flatMap]
  have : (List.countP (fun a : LinkAttr => Stats.counted d a.coord && p a.type) ∘ fun (k : Nat) =>
      (List.range dev.rows).flatMap fun (r : Nat) => (List.range dev.cols).flatMap fun (c : Nat) =>
        Device.linkTypes.map fun t => (⟨⟨k, r, c⟩, t⟩ : LinkAttr)) =
      fun (k : Nat) => if d = MESH_DEVICE ∨ d = k then dev.rows * (dev.cols * n) else 0 := by
    funext k; exact inner k
  rw [this]
  by_cases hm : d = MESH_DEVICE
  · simp [hm]
  · obtain ⟨h0, h1⟩ := hd.resolve_left hm
    obtain ⟨k, rfl⟩ := Int.eq_ofNat_of_zero_le h0
    simp only [hm, false_or, if_false, Nat.one_mul]
    have h1 : k < dev.chips := by omega
    have e : (fun (j : Nat) => if (k : Int) = j then dev.rows * (dev.cols * n) else 0) =
        fun (j : Nat) => if j = k then dev.rows * (dev.cols * n) else 0 := by
      funext j; simp [eq_comm]
    rw [e, sum_range_ite, if_pos h1]

/-- Entries of links with their demands. -/
abbrev LinkEntry := LinkAttr × ℚ × ℚ

theorem linksOf_fst {dev : Device} {g : Grids} (h : Sized dev g) :
    (linksOf dev g).map (·.1) = dev.linkTable := by
  unfold linksOf
  rw [List.map_fst_zip]
  rw [List.length_zip, h.2.1, h.2.2]; simp

theorem linksOf_length {dev : Device} {g : Grids} (h : Sized dev g) (p : LinkAttr → Bool) :
    ((linksOf dev g).filter fun e => p e.1).length = dev.linkTable.countP p := by
  rw [← linksOf_fst h, List.countP_map, ← List.countP_eq_length_filter]
  rfl

theorem linksOf_good {dev : Device} {g : Grids} (h : GoodGrids dev g) (e : LinkEntry)
    (he : e ∈ linksOf dev g) : 0 ≤ e.2.2 ∧ e.2.2 ≤ e.2.1 := by
  unfold linksOf at he
  obtain ⟨k, hk⟩ := List.mem_iff_getElem?.mp he
  rw [List.getElem?_zip_eq_some] at hk
  have hk2 := hk.2
  rw [List.getElem?_zip_eq_some] at hk2
  exact ⟨h.nonneg.2.2 _ (List.mem_of_getElem? hk2.2), h.part k _ _ hk2.1 hk2.2⟩

theorem sum_le_sum' {α : Type} {l : List α} {f g : α → ℚ} (h : ∀ a ∈ l, f a ≤ g a) :
    (l.map f).sum ≤ (l.map g).sum := by
  induction l with
  | nil => simp
  | cons a l ih =>
    simp only [List.map_cons, List.sum_cons]
    exact add_le_add (h a (by simp)) (ih fun b hb => h b (by simp [hb]))

theorem sum_le_card {α : Type} {l : List α} {f : α → ℚ} {b : ℚ} (h : ∀ a ∈ l, f a ≤ b) :
    (l.map f).sum ≤ b * l.length := by
  induction l with
  | nil => simp
  | cons a l ih =>
    simp only [List.map_cons, List.sum_cons, List.length_cons, Nat.cast_add, Nat.cast_one]
    have h1 := h a (by simp)
    have h2 := ih fun b hb => h b (by simp [hb])
    linarith

theorem le_foldl_max (l : List LinkEntry) (s : ℚ) :
    s ≤ l.foldl (fun m e => max m e.2.1) s ∧ ∀ e ∈ l, e.2.1 ≤ l.foldl (fun m e => max m e.2.1) s := by
  induction l generalizing s with
  | nil => simp
  | cons a l ih =>
    obtain ⟨h1, h2⟩ := ih (max s a.2.1)
    refine ⟨le_trans (le_max_left _ _) h1, ?_⟩
    intro e he
    rcases List.mem_cons.mp he with rfl | he
    · exact le_trans (le_max_right _ _) h1
    · exact h2 e he

/-- The averages over a list of links. -/
theorem averages {L : List LinkEntry} {bw : ℚ} {n : Nat} (hbw : 0 < bw) (hn : L.length = n) (hpos : 0 < n)
    (h : ∀ e ∈ L, 0 ≤ e.2.2 ∧ e.2.2 ≤ e.2.1) :
    let k : ℚ := 100 / (bw * n)
    0 ≤ (L.map fun e => min e.2.2 bw).sum * k ∧
    (L.map fun e => min e.2.2 bw).sum * k ≤ (L.map fun e => min e.2.1 bw).sum * k ∧
    (L.map fun e => min e.2.1 bw).sum * k ≤ (L.map fun e => e.2.1).sum * k ∧
    (L.map fun e => min e.2.1 bw).sum * k ≤ 100 ∧
    (L.map fun e => e.2.1).sum * k ≤ L.foldl (fun m e => max m e.2.1) 0 * (100 / bw) := by
  intro k
  have hn' : (0 : ℚ) < n := by exact_mod_cast hpos
  have hk : 0 ≤ k := by positivity
  have h1 : 0 ≤ (L.map fun e => min e.2.2 bw).sum := by
    apply List.sum_nonneg
    intro x hx
    obtain ⟨e, he, rfl⟩ := List.mem_map.mp hx
    exact le_min (h e he).1 hbw.le
  have h2 : (L.map fun e => min e.2.2 bw).sum ≤ (L.map fun e => min e.2.1 bw).sum :=
    sum_le_sum' fun e he => min_le_min_right _ (h e he).2
  have h3 : (L.map fun e => min e.2.1 bw).sum ≤ (L.map fun e => e.2.1).sum :=
    sum_le_sum' fun e he => min_le_left _ _
  have h4 : (L.map fun e => min e.2.1 bw).sum ≤ bw * n := by
    rw [← hn]; exact sum_le_card fun e he => min_le_right _ _
  have h5 : (L.map fun e => e.2.1).sum ≤ L.foldl (fun m e => max m e.2.1) 0 * n := by
    rw [← hn]; exact sum_le_card fun e he => (le_foldl_max L 0).2 e he
  refine ⟨mul_nonneg h1 hk, mul_le_mul_of_nonneg_right h2 hk, mul_le_mul_of_nonneg_right h3 hk, ?_, ?_⟩
  · have : bw * n * k = 100 := by
      show bw * n * (100 / (bw * n)) = 100
      field_simp
    rw [← this]; exact mul_le_mul_of_nonneg_right h4 hk
  · refine le_trans (mul_le_mul_of_nonneg_right h5 hk) (le_of_eq ?_)
    show _ * (n : ℚ) * (100 / (bw * n)) = _
    field_simp

theorem noc_split (t : LinkType) : Stats.isNoc1 t = !Stats.isNoc0 t := by cases t <;> rfl

theorem sum_split {α : Type} (l : List α) (p q : α → Bool) (hq : ∀ a, q a = !p a) (f : α → ℚ) :
    (l.map f).sum = ((l.filter p).map f).sum + ((l.filter q).map f).sum := by
  induction l with
  | nil => simp
  | cons a l ih =>
    simp only [List.map_cons, List.sum_cons, List.filter_cons, hq a]
    rw [ih]
    cases p a <;> simp <;> ring

theorem summarize_percentages {dev : Device} (hd : DeviceOk dev) (hbw : 0 < dev.linkBw) {g : Grids}
    (hg : GoodGrids dev g) (live : List Nat) {d : Int} (hdv : d = MESH_DEVICE ∨ (0 ≤ d ∧ d < dev.chips))
    (a b : Nat) :
    Percentages (Stats.summarize dev (linksOf dev g) (niusOf dev g) g live d { startc := a, endc := b }) := by
  -- the numbers of links
  have hrc : 0 < dev.rows * dev.cols := Nat.mul_pos hd.rows_pos hd.cols_pos
  have hch := hd.chips_pos
  obtain ⟨m, hm, hmpos⟩ : ∃ m : Nat, m = (if d = MESH_DEVICE then dev.chips else 1) * (dev.rows * dev.cols) ∧
      0 < m := by
    refine ⟨_, rfl, ?_⟩
    split
    · exact Nat.mul_pos hch hrc
    · simpa using hrc
  have hlen : g.link.length = dev.chips * (dev.rows * (dev.cols * 4)) := by
    rw [hg.sized.2.1, dev.linkTable_length]; rfl
  have hsize : (if d = MESH_DEVICE then g.link.length else g.link.length / dev.chips) = 4 * m := by
    rw [hm, hlen]
    split
    · ring
    · rw [Nat.mul_div_cancel_left _ hch]; ring
  have hhalf : 4 * m / 2 = 2 * m := by omega
  have filt : ∀ p : LinkType → Bool, ((linksOf dev g).filter fun e => Stats.counted d e.1.coord).filter
      (fun e => p e.1.type) = (linksOf dev g).filter fun e => Stats.counted d e.1.coord && p e.1.type := by
    intro p
    rw [List.filter_filter]
    congr 1
    funext e
    rw [Bool.and_comm]
  have c0 : (((linksOf dev g).filter fun e => Stats.counted d e.1.coord).filter
      fun e => Stats.isNoc0 e.1.type).length = 2 * m := by
    rw [filt, linksOf_length hg.sized (fun a => Stats.counted d a.coord && Stats.isNoc0 a.type),
      countP_table dev d Stats.isNoc0 2 rfl hdv, hm]
    split <;> ring
  have c1 : (((linksOf dev g).filter fun e => Stats.counted d e.1.coord).filter
      fun e => Stats.isNoc1 e.1.type).length = 2 * m := by
    rw [filt, linksOf_length hg.sized (fun a => Stats.counted d a.coord && Stats.isNoc1 a.type),
      countP_table dev d Stats.isNoc1 2 rfl hdv, hm]
    split <;> ring
  have c : ((linksOf dev g).filter fun e => Stats.counted d e.1.coord).length = 4 * m := by
    have h := countP_table dev d (fun _ => true) 4 rfl hdv
    simp only [Bool.and_true] at h
    rw [linksOf_length hg.sized (fun a => Stats.counted d a.coord), h, hm]
    split <;> ring
  have good : ∀ e ∈ (linksOf dev g).filter fun e => Stats.counted d e.1.coord, 0 ≤ e.2.2 ∧ e.2.2 ≤ e.2.1 :=
    fun e he => linksOf_good hg e (List.mem_of_mem_filter he)
  obtain ⟨a1, a2, a3, a4, a5⟩ := averages hbw c (by omega) good
  obtain ⟨b1, b2, b3, b4, b5⟩ := averages hbw c0 (by omega) fun e he => good e (List.mem_of_mem_filter he)
  obtain ⟨d1, d2, d3, d4, d5⟩ := averages hbw c1 (by omega) fun e he => good e (List.mem_of_mem_filter he)
  have hm' : (m : ℚ) ≠ 0 := by
    have : (0 : ℚ) < m := by exact_mod_cast hmpos
    exact ne_of_gt this
  have hbw' : dev.linkBw ≠ 0 := ne_of_gt hbw
  have split2 : ∀ f : LinkEntry → ℚ,
      (((linksOf dev g).filter fun e => Stats.counted d e.1.coord).map f).sum * (100 / (dev.linkBw * (4 * m : Nat))) =
      (((((linksOf dev g).filter fun e => Stats.counted d e.1.coord).filter
        fun e => Stats.isNoc0 e.1.type).map f).sum * (100 / (dev.linkBw * (2 * m : Nat))) +
       ((((linksOf dev g).filter fun e => Stats.counted d e.1.coord).filter
        fun e => Stats.isNoc1 e.1.type).map f).sum * (100 / (dev.linkBw * (2 * m : Nat)))) / 2 := by
    intro f
    rw [sum_split _ (fun e : LinkEntry => Stats.isNoc0 e.1.type) (fun e : LinkEntry => Stats.isNoc1 e.1.type)
      (fun e => noc_split _) f]
    push_cast
    field_simp
    ring
  unfold Stats.summarize
  simp only [hsize, hhalf]
  constructor <;> simp only [zero_add] <;> first | assumption | exact split2 _ | skip
  · exact le_trans b1 b2
  · exact le_trans d1 d2

end NPE
