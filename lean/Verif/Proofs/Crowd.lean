import Verif.Proofs.Independent
import Verif.Proofs.Offered
import Verif.Proofs.TotalApi

/-
A lower bound for the bandwidth under congestion: with `n` active transfers, each of at most 64 bytes
per cycle, no link and no network interface has a demand of more than `64 n`.
-/

namespace NPE
open Spec

/-- The factor is at least `x`, or does not limit. -/
def AtLeast (d : Option ℚ) (x : ℚ) : Prop := ∀ y, d = some y → x ≤ y

theorem minDerate_atLeast {a b : Option ℚ} {x : ℚ} (ha : AtLeast a x) (hb : AtLeast b x) :
    AtLeast (minDerate a b) x := by
  intro y hy
  cases a with
  | none => exact hb y hy
  | some u =>
    cases b with
    | none => exact ha y hy
    | some v =>
      rw [← Option.some.inj hy]
      exact le_min (ha u rfl) (hb v rfl)

theorem derate_atLeast {fp : FP} {limit x lim M : ℚ} (h0 : 0 ≤ lim) (hl : lim ≤ limit) (hx0 : 0 ≤ x)
    (hx : x ≤ M) : AtLeast (derate fp limit x) (fp.f32.fl (lim / M)) := by
  intro y hy
  unfold derate at hy
  split at hy
  · simp at hy
  · rename_i hne
    have hpos : 0 < x := lt_of_le_of_ne hx0 (Ne.symm hne)
    rw [← Option.some.inj hy]
    exact fp.f32.mono (div_le_div₀ (le_trans h0 hl) hl hpos hx)

theorem maxLinkDemand_le {g : Grids} {M : ℚ} : ∀ (route : List Int) (m0 m : ℚ), m0 ≤ M →
    (∀ l ∈ route, ∀ x, g.link[l.toNat]? = some x → x ≤ M) →
    Out.foldlM (fun m l => readAt g.link l >>= fun x => .ok (max m x)) m0 route = .ok m → m ≤ M := by
  intro route
  induction route with
  | nil => intro m0 m h0 _ h; rw [← Out.ok.inj h]; exact h0
  | cons l route ih =>
    intro m0 m h0 hall h
    rw [Out.foldlM_cons] at h
    obtain ⟨m1, h1, h⟩ := Out.bind_eq_ok.mp h
    obtain ⟨x, hx, h1⟩ := Out.bind_eq_ok.mp h1
    refine ih m1 m ?_ (fun k hk => hall k (List.mem_cons_of_mem _ hk)) h
    rw [← Out.ok.inj h1]
    exact max_le h0 (hall l (by simp) x (readAt_ok.mp hx).2)

theorem overallDerate_atLeast {fp : FP} {dev : Device} {g : Grids} {t : TState} {d : Option ℚ}
    {lim M : ℚ} (hM : 0 ≤ M) (hg : GridNonneg g) (h0 : 0 ≤ lim) (hlink : lim ≤ dev.linkBw)
    (hinj : lim ≤ t.params.injectionRate)
    (habs : ∀ e a, t.params.dst = .unicast e → dev.getSinkAbsorptionRate e = .ok a → lim ≤ a)
    (gl : ∀ l ∈ t.route, ∀ x, g.link[l.toNat]? = some x → x ≤ M)
    (gs : ∀ i x, dev.niuAt t.params.src (srcNiu t.params.noc) = .ok i → g.niu[i.toNat]? = some x → x ≤ M)
    (gk : ∀ e i x, t.params.dst = .unicast e → dev.niuAt e (sinkNiu t.params.noc) = .ok i →
      g.niu[i.toNat]? = some x → x ≤ M)
    (h : overallDerate fp dev g t = .ok d) : AtLeast d (fp.f32.fl (lim / M)) := by
  unfold overallDerate at h
  obtain ⟨m, hm, h⟩ := Out.bind_eq_ok.mp h
  obtain ⟨src, hsrc, h⟩ := Out.bind_eq_ok.mp h
  obtain ⟨sd, hsd, h⟩ := Out.bind_eq_ok.mp h
  obtain ⟨sk, hsk, h⟩ := Out.bind_eq_ok.mp h
  rw [← Out.ok.inj h]
  obtain ⟨_, hs1⟩ := readAt_ok.mp hsd
  refine minDerate_atLeast (derate_atLeast h0 hlink (maxLinkDemand_ge _ _ _ hm).1
    (maxLinkDemand_le _ _ _ hM gl hm)) (minDerate_atLeast (derate_atLeast h0 hinj
      (hg.2.1 _ (List.mem_of_getElem? hs1)) (gs src sd hsrc hs1)) ?_)
  cases hdst : t.params.dst with
  | unicast e =>
    unfold sinkDerate at hsk
    rw [hdst] at hsk
    simp only at hsk
    obtain ⟨i, hi, hsk⟩ := Out.bind_eq_ok.mp hsk
    obtain ⟨x, hx, hsk⟩ := Out.bind_eq_ok.mp hsk
    obtain ⟨a, ha, hsk⟩ := Out.bind_eq_ok.mp hsk
    rw [← Out.ok.inj hsk]
    obtain ⟨_, hx1⟩ := readAt_ok.mp hx
    exact derate_atLeast h0 (habs e a hdst ha) (hg.2.1 x (List.mem_of_getElem? hx1)) (gk e i x hdst hi hx1)
  | mcast gs =>
    rw [sinkDerate_mcast hg hdst hsk]
    intro y hy
    simp at hy

/-! ### Demands -/

/-- A `float` sum of numbers of at most 64 is at most 64 times their number. -/
theorem accum_le (fp : FP) : ∀ (es : List ℚ) (y : ℚ) (k : Nat), y ≤ 64 * k → (∀ e ∈ es, e ≤ 64) →
    64 * (k + es.length) ≤ 16777216 → accum fp es y ≤ 64 * ((k + es.length : Nat) : ℚ) := by
  intro es
  induction es with
  | nil => intro y k hy _ _; simpa using hy
  | cons e es ih =>
    intro y k hy he hk
    rw [List.length_cons] at hk
    have e1 : accum fp (e :: es) y = accum fp es (fp.f32.fl (y + e)) := rfl
    have h1 : fp.f32.fl (y + e) ≤ 64 * ((k + 1 : Nat) : ℚ) := by
      have h2 : y + e ≤ ((64 * (k + 1) : Nat) : ℚ) := by
        have := he e (by simp)
        push_cast
        linarith
      have h3 := fp.f32.mono h2
      rw [fp.f32.fl_nat (by omega)] at h3
      push_cast at h3 ⊢
      exact h3
    rw [e1]
    have := ih (fp.f32.fl (y + e)) (k + 1) h1 (fun x hx => he x (List.mem_cons_of_mem _ hx)) (by omega)
    rw [List.length_cons]
    rw [show k + (es.length + 1) = k + 1 + es.length by omega]
    exact this

/-- The demand of a transfer is at most its bandwidth. -/
theorem effectiveDemand_le {fp : FP} {sot curr : Nat} {t : TState} (h : sot ≤ curr)
    (hs : t.start ≤ curr) (hc : curr < 4294967296) (hb : 0 ≤ t.bw) (hr : fp.f32.Rep t.bw) :
    effectiveDemand fp sot curr t ≤ t.bw := by
  have hm : max sot t.start ≤ curr := max_le h hs
  have e : effectiveDemand fp sot curr t = fp.f32.fl (fp.f32.fl (fp.f32.fl
      ((curr - max sot t.start : Nat) : ℚ) / fp.f32.fl ((curr : ℚ) - sot)) * t.bw) := by
    unfold effectiveDemand
    simp only
    rw [toU32_diff hm hc]
  rw [e]
  have h1 : fp.f32.fl ((curr - max sot t.start : Nat) : ℚ) ≤ fp.f32.fl ((curr : ℚ) - sot) := by
    refine fp.f32.mono ?_
    rw [Nat.cast_sub hm]
    have : (sot : ℚ) ≤ (max sot t.start : Nat) := by exact_mod_cast le_max_left _ _
    linarith
  have h2 : 0 ≤ fp.f32.fl ((curr - max sot t.start : Nat) : ℚ) := fp.f32.fl_nonneg (by positivity)
  have h3 : fp.f32.fl ((curr - max sot t.start : Nat) : ℚ) / fp.f32.fl ((curr : ℚ) - sot) ≤ 1 :=
    div_le_one_of_le₀ h1 (le_trans h2 h1)
  have h4 := fp.f32.fl_le_one h3
  refine fp.f32.fl_le_of_rep hr ?_
  nlinarith

/-- The route of an executable transfer uses no link twice. -/
theorem exec_route_nodup {dev : Device} (hd : DeviceOk dev) {ord : List Int → List Int}
    (hord : ∀ l, (ord l).Perm l) {t : Transfer} (h : Executable dev t) {r : List Int}
    (hr : dev.route ord t.noc t.src t.dst = .ok r) : r.Nodup := by
  have hdst := h.dst
  cases hdst' : t.dst with
  | unicast e =>
    rw [hdst'] at hdst hr
    cases hdst with
    | core _ he hdv =>
      rw [dev.route_unicast_eq hd ord t.noc t.src e h.src he hdv] at hr
      rw [← Out.ok.inj hr]
      exact dev.map_linkIdx_nodup _ (dev.legs_on _ _ _ _ h.src.1 h.src.2 he.2)
        (dev.legs_nodup _ _ _ _ h.src.2)
  | mcast gs =>
    rw [hdst'] at hdst hr
    cases hdst with
    | rect g hlo hhi _ _ hdv =>
      obtain ⟨ids, h1, h2, _⟩ := dev.route_mcast_eq hd ord hord t.noc t.src g h.src hlo hhi hdv
      rw [hr] at h1
      rw [Out.ok.inj h1]
      exact h2

theorem exec_rects {dev : Device} (hsmall : dev.rows ≤ 32767 ∧ dev.cols ≤ 32767) {t : Transfer}
    (h : Executable dev t) : RectsOk t := by
  intro gs hgs g hg
  have hdst := h.dst
  rw [hgs] at hdst
  cases hdst with
  | rect g' hlo hhi hrr hcc hdv =>
    simp only [List.mem_singleton] at hg
    subst hg
    obtain ⟨⟨a1, a2⟩, a3, a4⟩ := hlo
    obtain ⟨⟨b1, b2⟩, b3, b4⟩ := hhi
    exact ⟨hrr, hcc, by omega, by omega, by omega, by omega⟩

/-- An executable transfer reaches a core at most once. -/
theorem exec_reaches {dev : Device} {t : TState} (h : Executable dev t.params) (noc : Noc) (c : Coord) :
    reaches dev noc c t ≤ 1 := by
  unfold reaches
  split
  · have hdst := h.dst
    cases hdst' : t.params.dst with
    | unicast e => simp only; split <;> omega
    | mcast gs =>
      rw [hdst'] at hdst
      cases hdst with
      | rect g =>
        simp only
        split
        · exact le_trans (List.countP_le_length) (by simp)
        · omega
  · omega

/-- All contributions are at most 64. -/
theorem contrib_le {c : TState → List ℚ} {ts : List TState} {live : List Nat}
    (h : ∀ i ∈ live, ∀ t, ts[i]? = some t → ∀ e ∈ c t, e ≤ 64) : ∀ e ∈ contrib c ts live, e ≤ 64 := by
  intro e he
  unfold contrib at he
  obtain ⟨i, hi, he⟩ := List.mem_flatMap.mp he
  cases ht : ts[i]? with
  | none => simp [ht] at he
  | some t => simp only [ht] at he; exact h i hi t ht e he

/-- The entry of a grid that started from zero, with at most one contribution of at most 64 per
transfer. -/
theorem entry_le {fp : FP} {c : TState → List ℚ} {ts : List TState} {live : List Nat} {n : Nat}
    (hn : live.length ≤ n) (h24 : 64 * n ≤ 16777216)
    (h1 : ∀ i ∈ live, ∀ t, ts[i]? = some t → (c t).length ≤ 1)
    (h2 : ∀ i ∈ live, ∀ t, ts[i]? = some t → ∀ e ∈ c t, e ≤ 64) :
    accum fp (contrib c ts live) 0 ≤ 64 * n := by
  have hl := contrib_length live h1
  have := accum_le fp (contrib c ts live) 0 0 (by simp) (contrib_le h2) (by omega)
  rw [Nat.zero_add] at this
  refine le_trans this ?_
  have : ((contrib c ts live).length : ℚ) ≤ n := by exact_mod_cast le_trans hl hn
  linarith

/-! ### The bandwidth -/

/-- Applying a factor of at least `y` leaves at least half of the share `y` (the single-chip models
compute `1 - (1 - d)` with `1 - d` in `float`, which loses up to `2^-24` of the factor). -/
theorem applyDerate_ge {fp : FP} {dev : Device} {bw y : ℚ} {d : Option ℚ} (hb : 0 ≤ bw)
    (hy : 1 / 4194304 ≤ y) (hd : AtLeast d (fp.f32.fl y)) :
    applyDerate fp dev bw d = bw ∨ bw * (y / 2) ≤ applyDerate fp dev bw d := by
  cases d with
  | none => exact Or.inl rfl
  | some d =>
    have h1 : y * (1 - 1 / 16777216) ≤ d := le_trans (fp.f32.fl_ge_err (by linarith)) (hd d rfl)
    unfold applyDerate
    simp only
    split
    · rename_i hlt
      right
      split
      · have hd0 : 0 ≤ d := le_trans (by nlinarith) h1
        have h2 := fp.f32.fl_ge_err (x := bw * d) (by positivity)
        refine le_trans ?_ h2
        rw [mul_assoc]
        exact mul_le_mul_of_nonneg_left (by nlinarith) hb
      · have h2 := fp.f32.fl_le_err (x := 1 - d) (by linarith)
        have h3 : y * (3 / 4 - 1 / 16777216) ≤ 1 - fp.f32.fl (1 - d) := by
          have : (1 - d) * (1 + 1 / 16777216) ≤ (1 - d) + 1 / 16777216 := by nlinarith
          nlinarith
        have h3' : 0 ≤ y * (3 / 4 - 1 / 16777216) := by nlinarith
        have h4 := fp.f64.fl_ge_err (le_trans h3' h3)
        have h5 : y * (3 / 4 - 1 / 16777216) * (1 - 1 / 16777216) ≤ fp.f64.fl (1 - fp.f32.fl (1 - d)) :=
          le_trans (mul_le_mul_of_nonneg_right h3 (by norm_num)) h4
        have h5' : 0 ≤ fp.f64.fl (1 - fp.f32.fl (1 - d)) := le_trans (by nlinarith) h5
        have h6 := fp.f64.fl_ge_err (x := bw * fp.f64.fl (1 - fp.f32.fl (1 - d))) (by positivity)
        have h6' := fp.f64.fl_nonneg (x := bw * fp.f64.fl (1 - fp.f32.fl (1 - d))) (by positivity)
        have h7 := fp.f32.fl_ge_err h6'
        refine le_trans ?_ h7
        have h8 : bw * (y * (3 / 4 - 1 / 16777216) * (1 - 1 / 16777216)) ≤
            bw * fp.f64.fl (1 - fp.f32.fl (1 - d)) := mul_le_mul_of_nonneg_left h5 hb
        have h9 := le_trans (mul_le_mul_of_nonneg_right h8 (show (0 : ℚ) ≤ 1 - 1 / 16777216 by norm_num)) h6
        have h10 := mul_le_mul_of_nonneg_right h9 (show (0 : ℚ) ≤ 1 - 1 / 16777216 by norm_num)
        refine le_trans ?_ h10
        have hby : 0 ≤ bw * y := mul_nonneg hb (by linarith)
        nlinarith
    · exact Or.inl rfl

theorem niuAt_nonneg {dev : Device} (hl : dev.nLinks ≤ 32768) {c : Coord} {ty : NIUType} {i : Int}
    (h : dev.niuAt c ty = .ok i) : 0 ≤ i := by
  unfold Device.niuAt at h
  obtain ⟨_, e⟩ := getNIUID_ok hl h
  omega

/-- The bandwidth of an active transfer among at most `n`: its own, or at least half of the `64 n`-th
part of its tightest limit. -/
theorem crowd_rates {fp : FP} {dev : Device} (hdv : DeviceOk dev) (hT : TableOk fp dev.tbt)
    (hmax : dev.maxBw * (1 + 1 / 2097152) ≤ 64) (hsmall : dev.rows ≤ 32767 ∧ dev.cols ≤ 32767)
    {ord : List Int → List Int} (hord : ∀ l, (ord l).Perm l) {n : Nat} (h24 : 64 * n ≤ 16777216)
    {sot curr : Nat} (hle : sot ≤ curr) (hcurr : curr < 4294967296) {g g' : Grids}
    {ts ts' : List TState} {live : List Nat} (hn : live.Nodup) (hlen : live.length ≤ n)
    (hs : ∀ i ∈ live, ∀ t, ts[i]? = some t → t.start ≤ curr ∧ 0 ≤ t.params.injectionRate ∧
      fp.f32.Rep t.params.injectionRate ∧ Executable dev t.params ∧
      dev.route ord t.params.noc t.params.src t.params.dst = .ok t.route)
    (h : computeRates fp dev true sot curr g ts live = .ok (ts', g')) (i : Nat) (hi : i ∈ live) :
    ∃ t b d, ts[i]? = some t ∧ tableBw fp dev t = .ok b ∧
      ts'[i]? = some { t with bw := applyDerate fp dev b d } ∧
      ∀ lim, 0 ≤ lim → lim ≤ dev.linkBw → lim ≤ t.params.injectionRate →
        (∀ e a, t.params.dst = .unicast e → dev.getSinkAbsorptionRate e = .ok a → lim ≤ a) →
        AtLeast d (fp.f32.fl (lim / (64 * n))) := by
  unfold computeRates at h
  obtain ⟨ts1, h1, h⟩ := Out.bind_eq_ok.mp h
  have w1 := updateTransferBandwidth_written hn h1
  simp only [if_true] at h
  obtain ⟨hin, hacc, w2⟩ := modelCongestion_parts hn h
  have h1s : ∀ j ∈ live, ∀ u, ts1[j]? = some u → u.start ≤ curr ∧ 0 ≤ u.params.injectionRate ∧
      0 ≤ u.bw ∧ u.bw ≤ 64 ∧ fp.f32.Rep u.bw ∧ Executable dev u.params ∧
      dev.route ord u.params.noc u.params.src u.params.dst = .ok u.route := by
    intro j hj u hu
    obtain ⟨t, b, a1, a2, a3⟩ := w1.2.2 j hj
    rw [hu] at a3
    have e := Option.some.inj a3
    obtain ⟨s1, s2, s3, s4, s5⟩ := hs j hj t a1
    obtain ⟨b1, b2, _, b4⟩ := tableBw_ok hT a2
    rw [e]
    exact ⟨s1, s2, b1 s2, le_trans b4 hmax, b2 s3, s4, s5⟩
  have hsane : Sane curr ts1 live := ⟨hn, fun j hj u hu =>
    ⟨(h1s j hj u hu).1, (h1s j hj u hu).2.2.1, (h1s j hj u hu).2.1⟩⟩
  have hgn := accumulated_nonneg hle hsane hacc
  have hdem : ∀ j ∈ live, ∀ u, ts1[j]? = some u → effectiveDemand fp sot curr u ≤ 64 := by
    intro j hj u hu
    obtain ⟨s1, _, s3, s4, s5, _⟩ := h1s j hj u hu
    exact le_trans (effectiveDemand_le hle s1 hcurr s3 s5) s4
  obtain ⟨_, _, _, an, al, _⟩ := hacc
  have hlk : ∀ (k : Nat) x, g'.link[k]? = some x → x ≤ 64 * n := by
    intro k x hx
    rw [al k, initGrids_link] at hx
    split at hx
    · rw [Option.map_some] at hx
      rw [← Option.some.inj hx]
      refine entry_le hlen h24 ?_ ?_
      · intro j hj u hu
        unfold linkC
        rw [List.length_replicate]
        exact List.nodup_iff_count_le_one.mp (exec_route_nodup hdv hord (h1s j hj u hu).2.2.2.2.2.1
          (h1s j hj u hu).2.2.2.2.2.2) _
      · intro j hj u hu e he
        rw [(List.mem_replicate.mp he).2]
        exact hdem j hj u hu
    · simp at hx
  have hniu : ∀ (k : Nat) x, (∀ j ∈ live, ∀ u, ts1[j]? = some u →
      ((loads dev u.params).getD []).count (k : Int) ≤ 1) → g'.niu[k]? = some x → x ≤ 64 * n := by
    intro k x hc hx
    rw [an k, initGrids_niu] at hx
    split at hx
    · rw [Option.map_some] at hx
      rw [← Option.some.inj hx]
      refine entry_le hlen h24 ?_ ?_
      · intro j hj u hu
        unfold niuC
        rw [List.length_replicate]
        exact hc j hj u hu
      · intro j hj u hu e he
        rw [(List.mem_replicate.mp he).2]
        exact hdem j hj u hu
    · simp at hx
  have hld : ∀ j ∈ live, ∀ u, ts1[j]? = some u → ∃ L, loads dev u.params = .ok L := by
    intro j hj u hu
    obtain ⟨u', hu', ⟨⟨L, hL, _⟩, _⟩⟩ := hin j hj
    rw [hu] at hu'
    rw [Option.some.inj hu']
    exact ⟨L, hL⟩
  obtain ⟨t, b, a1, a2, a3⟩ := w1.2.2 i hi
  obtain ⟨t', b', c1, c2, c3⟩ := w2.2.2 i hi
  rw [a3] at c1
  have e := Option.some.inj c1
  subst e
  unfold deratedBw at c2
  obtain ⟨d, d1, d2⟩ := Out.bind_eq_ok.mp c2
  rw [← Out.ok.inj d2] at c3
  refine ⟨t, b, d, a1, a2, c3, ?_⟩
  intro lim l0 l1 l2 l3
  refine overallDerate_atLeast (t := { t with bw := b }) (by positivity) hgn l0 l1 l2 l3
    (fun l _ x hx => hlk _ x hx) ?_ ?_ d1
  · intro k x hk hx
    refine hniu k.toNat x (fun j hj u hu => ?_) hx
    obtain ⟨L, hL⟩ := hld j hj u hu
    have hk0 : ((k.toNat : Nat) : Int) = k := Int.toNat_of_nonneg (niuAt_nonneg hdv.ids hk)
    rw [hL, hk0]
    show L.count k ≤ 1
    rw [loads_count_src hdv.ids hL hk]
    unfold leaves
    split <;> omega
  · intro e k x he hk hx
    refine hniu k.toNat x (fun j hj u hu => ?_) hx
    obtain ⟨L, hL⟩ := hld j hj u hu
    have hk0 : ((k.toNat : Nat) : Int) = k := Int.toNat_of_nonneg (niuAt_nonneg hdv.ids hk)
    rw [hL, hk0]
    show L.count k ≤ 1
    have hx' := (h1s j hj u hu).2.2.2.2.2.1
    rw [loads_count_sink hdv.ids (exec_rects hsmall hx') hL hk]
    exact exec_reaches hx' _ _

end NPE
