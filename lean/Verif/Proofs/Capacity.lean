import Verif.Proofs.Congestion
import Verif.Spec.Congestion
import Mathlib.Tactic.FieldSimp

/-
Bounds on the derating factor and the capacity of a resource.
-/

namespace NPE
open Spec

theorem accum_exact (es : List ℚ) (y : ℚ) : accum .exact es y = y + es.sum := by
  induction es generalizing y with
  | nil => simp
  | cons e es ih =>
    have : accum .exact (e :: es) y = accum .exact es (y + e) := rfl
    rw [this, ih, List.sum_cons]; ring

theorem accum_nonneg (fp : FP) (es : List ℚ) (y : ℚ) (hy : 0 ≤ y) (h : ∀ e ∈ es, 0 ≤ e) :
    0 ≤ accum fp es y := by
  induction es generalizing y with
  | nil => simpa
  | cons e es ih =>
    have h0 : 0 ≤ e := h e (by simp)
    exact ih _ (fp.f32.fl_nonneg (by linarith)) fun e he => h e (List.mem_cons_of_mem _ he)

/-- The error of a `float` sum of numbers that are not negative. -/
theorem accum_ge (fp : FP) (es : List ℚ) (y : ℚ) (hy : 0 ≤ y) (h : ∀ e ∈ es, 0 ≤ e) :
    (y + es.sum) * (1 - 1 / 16777216) ^ es.length ≤ accum fp es y := by
  induction es generalizing y with
  | nil => simp
  | cons e es ih =>
    have h0 : 0 ≤ e := h e (by simp)
    have hs : 0 ≤ es.sum := List.sum_nonneg fun x hx => h x (List.mem_cons_of_mem _ hx)
    have h1 := ih (fp.f32.fl (y + e)) (fp.f32.fl_nonneg (by linarith)) fun x hx =>
      h x (List.mem_cons_of_mem _ hx)
    have h2 := fp.f32.fl_ge_err (x := y + e) (by linarith)
    have e1 : accum fp (e :: es) y = accum fp es (fp.f32.fl (y + e)) := rfl
    rw [e1]
    refine le_trans ?_ h1
    rw [List.sum_cons, List.length_cons, pow_succ]
    have hp : (0 : ℚ) ≤ (1 - 1 / 16777216) ^ es.length := by positivity
    have : (y + (e + es.sum)) * (1 - 1 / 16777216) ≤ fp.f32.fl (y + e) + es.sum := by nlinarith
    calc (y + (e + es.sum)) * ((1 - 1 / 16777216) ^ es.length * (1 - 1 / 16777216))
        = ((y + (e + es.sum)) * (1 - 1 / 16777216)) * (1 - 1 / 16777216) ^ es.length := by ring
      _ ≤ _ := mul_le_mul_of_nonneg_right this hp

/-! ### The derating factor -/

theorem maxLinkDemand_ge {g : Grids} : ∀ (route : List Int) (m0 m : ℚ),
    Out.foldlM (fun m l => readAt g.link l >>= fun x => .ok (max m x)) m0 route = .ok m →
    m0 ≤ m ∧ ∀ l ∈ route, ∃ x, 0 ≤ l ∧ g.link[l.toNat]? = some x ∧ x ≤ m := by
  intro route
  induction route with
  | nil => intro m0 m h; rw [← Out.ok.inj h]; simp
  | cons l route ih =>
    intro m0 m h
    rw [Out.foldlM_cons] at h
    obtain ⟨m1, h1, h⟩ := Out.bind_eq_ok.mp h
    obtain ⟨x, hx, h1⟩ := Out.bind_eq_ok.mp h1
    obtain ⟨a, b⟩ := ih m1 m h
    rw [← Out.ok.inj h1] at a
    refine ⟨le_trans (le_max_left _ _) a, ?_⟩
    intro k hk
    rcases List.mem_cons.mp hk with rfl | hk
    · exact ⟨x, (readAt_ok.mp hx).1, (readAt_ok.mp hx).2, le_trans (le_max_right _ _) a⟩
    · exact b k hk

/-- `d` is at most the factor `x`. -/
def AtMost (d : Option ℚ) (x : ℚ) : Prop := ∃ y, d = some y ∧ y ≤ x

theorem minDerate_left {a b : Option ℚ} {x : ℚ} (h : AtMost a x) : AtMost (minDerate a b) x := by
  obtain ⟨y, rfl, hy⟩ := h
  cases b with
  | none => exact ⟨y, rfl, hy⟩
  | some z => exact ⟨min y z, rfl, le_trans (min_le_left _ _) hy⟩

theorem minDerate_right {a b : Option ℚ} {x : ℚ} (h : AtMost b x) : AtMost (minDerate a b) x := by
  obtain ⟨y, rfl, hy⟩ := h
  cases a with
  | none => exact ⟨y, rfl, hy⟩
  | some z => exact ⟨min z y, rfl, le_trans (min_le_right _ _) hy⟩

theorem derate_atMost {fp : FP} {limit a b : ℚ} (hl : 0 ≤ limit) (ha : 0 < a) (hab : a ≤ b) :
    AtMost (derate fp limit b) (fp.f32.fl (limit / a)) := by
  unfold derate
  rw [if_neg (by linarith)]
  exact ⟨_, rfl, fp.f32.mono (div_le_div_of_nonneg_left hl ha hab)⟩

/-- The factor is not negative. -/
def NonnegFactor (d : Option ℚ) : Prop := ∀ y, d = some y → 0 ≤ y

theorem derate_nonneg {fp : FP} {limit a : ℚ} (hl : 0 ≤ limit) (ha : 0 ≤ a) :
    NonnegFactor (derate fp limit a) := by
  intro y hy
  unfold derate at hy
  split at hy
  · simp at hy
  · rw [← Option.some.inj hy]
    exact fp.f32.fl_nonneg (by positivity)

theorem minDerate_nonneg {a b : Option ℚ} (ha : NonnegFactor a) (hb : NonnegFactor b) :
    NonnegFactor (minDerate a b) := by
  intro y hy
  cases a with
  | none => exact hb y hy
  | some x =>
    cases b with
    | none => exact ha y hy
    | some z =>
      rw [← Option.some.inj hy]
      exact le_min (ha x rfl) (hb z rfl)

/-- All entries are at least zero. -/
def GridNonneg (g : Grids) : Prop := (∀ x ∈ g.link, 0 ≤ x) ∧ (∀ x ∈ g.niu, 0 ≤ x) ∧ ∀ x ∈ g.mcast, 0 ≤ x

theorem sinkMin_nonpos {g : Grids} : ∀ (ids : List Int) (m0 m : ℚ), m0 ≤ 0 →
    Out.foldlM (fun m i => readAt g.niu i >>= fun x => .ok (min m x)) m0 ids = .ok m → m ≤ 0 := by
  intro ids
  induction ids with
  | nil => intro m0 m h0 h; rw [← Out.ok.inj h]; exact h0
  | cons i ids ih =>
    intro m0 m h0 h
    rw [Out.foldlM_cons] at h
    obtain ⟨m1, h1, h⟩ := Out.bind_eq_ok.mp h
    obtain ⟨x, hx, h1⟩ := Out.bind_eq_ok.mp h1
    refine ih m1 m ?_ h
    rw [← Out.ok.inj h1]
    exact le_trans (min_le_left _ _) h0

theorem sinkMin_nonneg {g : Grids} (hg : ∀ x ∈ g.niu, 0 ≤ x) : ∀ (ids : List Int) (m0 m : ℚ), 0 ≤ m0 →
    Out.foldlM (fun m i => readAt g.niu i >>= fun x => .ok (min m x)) m0 ids = .ok m → 0 ≤ m := by
  intro ids
  induction ids with
  | nil => intro m0 m h0 h; rw [← Out.ok.inj h]; exact h0
  | cons i ids ih =>
    intro m0 m h0 h
    rw [Out.foldlM_cons] at h
    obtain ⟨m1, h1, h⟩ := Out.bind_eq_ok.mp h
    obtain ⟨x, hx, h1⟩ := Out.bind_eq_ok.mp h1
    refine ih m1 m ?_ h
    rw [← Out.ok.inj h1]
    exact le_min h0 (hg x (List.mem_of_getElem? (readAt_ok.mp hx).2))

/-- What limits a transfer. -/
structure Limits (fp : FP) (dev : Device) (g : Grids) (t : TState) (d : Option ℚ) : Prop where
  nonneg : NonnegFactor d
  link : ∀ l ∈ t.route, ∃ x, 0 ≤ l ∧ g.link[l.toNat]? = some x ∧
    (0 < x → AtMost d (fp.f32.fl (dev.linkBw / x)))
  src : ∃ i x, dev.niuAt t.params.src (srcNiu t.params.noc) = .ok i ∧ 0 ≤ i ∧
    g.niu[i.toNat]? = some x ∧ (0 < x → AtMost d (fp.f32.fl (t.params.injectionRate / x)))
  sink : ∀ e, t.params.dst = .unicast e → ∃ i x a, dev.niuAt e (sinkNiu t.params.noc) = .ok i ∧
    0 ≤ i ∧ g.niu[i.toNat]? = some x ∧ dev.getSinkAbsorptionRate e = .ok a ∧
    (0 < x → AtMost d (fp.f32.fl (a / x)))

theorem absRate_nonneg {dev : Device} (hc : Capacities dev) {e : Coord} {a : ℚ}
    (h : dev.getSinkAbsorptionRate e = .ok a) : 0 ≤ a := by
  unfold Device.getSinkAbsorptionRate at h
  obtain ⟨c, _, h⟩ := Out.bind_eq_ok.mp h
  rw [← Out.ok.inj h]
  exact hc.2.2 c

theorem overallDerate_limits {fp : FP} {dev : Device} {g : Grids} {t : TState} {d : Option ℚ}
    (hc : Capacities dev) (hg : GridNonneg g) (hi : 0 ≤ t.params.injectionRate)
    (h : overallDerate fp dev g t = .ok d) : Limits fp dev g t d := by
  unfold overallDerate at h
  obtain ⟨m, hm, h⟩ := Out.bind_eq_ok.mp h
  obtain ⟨src, hsrc, h⟩ := Out.bind_eq_ok.mp h
  obtain ⟨sd, hsd, h⟩ := Out.bind_eq_ok.mp h
  obtain ⟨sk, hsk, h⟩ := Out.bind_eq_ok.mp h
  have hd := Out.ok.inj h
  obtain ⟨m0, hml⟩ := maxLinkDemand_ge _ _ _ hm
  obtain ⟨hs0, hs1⟩ := readAt_ok.mp hsd
  have hskn : NonnegFactor sk ∧ ∀ e, t.params.dst = .unicast e → ∃ i x a,
      dev.niuAt e (sinkNiu t.params.noc) = .ok i ∧ 0 ≤ i ∧ g.niu[i.toNat]? = some x ∧
      dev.getSinkAbsorptionRate e = .ok a ∧ (0 < x → AtMost sk (fp.f32.fl (a / x))) := by
    unfold sinkDerate at hsk
    cases hdst : t.params.dst with
    | unicast e =>
      rw [hdst] at hsk
      simp only at hsk
      obtain ⟨i, hi, hsk⟩ := Out.bind_eq_ok.mp hsk
      obtain ⟨x, hx, hsk⟩ := Out.bind_eq_ok.mp hsk
      obtain ⟨a, ha, hsk⟩ := Out.bind_eq_ok.mp hsk
      rw [← Out.ok.inj hsk]
      have ha0 := absRate_nonneg hc ha
      obtain ⟨hx0, hx1⟩ := readAt_ok.mp hx
      refine ⟨derate_nonneg ha0 (hg.2.1 x (List.mem_of_getElem? hx1)), ?_⟩
      intro e' he
      have := Dest.unicast.inj he
      subst this
      exact ⟨i, x, a, hi, hx0, hx1, ha, fun hp => derate_atMost ha0 hp le_rfl⟩
    | mcast gs =>
      rw [hdst] at hsk
      simp only at hsk
      obtain ⟨ids, _, hsk⟩ := Out.bind_eq_ok.mp hsk
      obtain ⟨m, hm, hsk⟩ := Out.bind_eq_ok.mp hsk
      rw [← Out.ok.inj hsk]
      exact ⟨derate_nonneg (hc.2.2 _) (sinkMin_nonneg hg.2.1 _ _ _ le_rfl hm), by simp⟩
  rw [← hd]
  refine ⟨?_, ?_, ?_, ?_⟩
  · exact minDerate_nonneg (derate_nonneg hc.1 m0) (minDerate_nonneg
      (derate_nonneg hi (hg.2.1 _ (List.mem_of_getElem? hs1))) hskn.1)
  · intro l hl
    obtain ⟨x, h1, h2, h3⟩ := hml l hl
    exact ⟨x, h1, h2, fun hp => minDerate_left (derate_atMost hc.1 hp h3)⟩
  · exact ⟨src, sd, hsrc, hs0, hs1, fun hp => minDerate_right (minDerate_left
      (derate_atMost hi hp le_rfl))⟩
  · intro e he
    obtain ⟨i, x, a, h1, h2, h3, h4, h5⟩ := hskn.2 e he
    exact ⟨i, x, a, h1, h2, h3, h4, fun hp => minDerate_right (minDerate_right (h5 hp))⟩

/-- A multicast is not limited by its sinks. -/
theorem sinkDerate_mcast {fp : FP} {dev : Device} {g : Grids} {t : Transfer} {gs : List CoordGrid}
    {d : Option ℚ} (hg : GridNonneg g) (ht : t.dst = .mcast gs)
    (h : sinkDerate fp dev g t = .ok d) : d = none := by
  unfold sinkDerate at h
  rw [ht] at h
  simp only at h
  obtain ⟨ids, _, h⟩ := Out.bind_eq_ok.mp h
  obtain ⟨m, hm, h⟩ := Out.bind_eq_ok.mp h
  rw [← Out.ok.inj h]
  have h0 : m = 0 := le_antisymm (sinkMin_nonpos _ _ _ le_rfl hm) (sinkMin_nonneg hg.2.1 _ _ _ le_rfl hm)
  unfold derate
  rw [if_pos h0]

/-! ### Applying the factor -/

theorem applyDerate_le {fp : FP} {dev : Device} {bw : ℚ} {d : Option ℚ} (hb : 0 ≤ bw)
    (hr : fp.f32.Rep bw) (hd : NonnegFactor d) :
    0 ≤ applyDerate fp dev bw d ∧ applyDerate fp dev bw d ≤ bw := by
  cases d with
  | none => exact ⟨hb, le_rfl⟩
  | some d =>
    have h0 := hd d rfl
    unfold applyDerate
    simp only
    split
    · split
      · refine ⟨fp.f32.fl_nonneg (by positivity), fp.f32.fl_le_of_rep hr ?_⟩
        nlinarith
      · have h1 : 0 ≤ fp.f32.fl (1 - d) := fp.f32.fl_nonneg (by linarith)
        have h2 : fp.f32.fl (1 - d) ≤ 1 := fp.f32.fl_le_one (by linarith)
        have h3 : 0 ≤ fp.f64.fl (1 - fp.f32.fl (1 - d)) := fp.f64.fl_nonneg (by linarith)
        have h4 : fp.f64.fl (1 - fp.f32.fl (1 - d)) ≤ 1 := fp.f64.fl_le_one (by linarith)
        have hr64 : fp.f64.Rep bw := by
          have := fp.f32_rep64 bw
          rw [show fp.f32.fl bw = bw from hr] at this
          exact this
        refine ⟨fp.f32.fl_nonneg (fp.f64.fl_nonneg (by positivity)), fp.f32.fl_le_of_rep hr ?_⟩
        exact fp.f64.fl_le_of_rep hr64 (by nlinarith)
    · exact ⟨hb, le_rfl⟩

theorem applyDerate_exact {dev : Device} {bw d x : ℚ} (hb : 0 ≤ bw) (hd : d ≤ x) :
    applyDerate .exact dev bw (some d) ≤ bw * x := by
  unfold applyDerate
  have e : FP.exact.f32.fl (FP.exact.f64.fl (bw * FP.exact.f64.fl (1 - FP.exact.f32.fl (1 - d)))) =
      bw * d := by show bw * (1 - (1 - d)) = bw * d; ring
  have e2 : FP.exact.f32.fl (bw * d) = bw * d := rfl
  simp only [e, e2, ite_self]
  split
  · nlinarith
  · nlinarith

/-- The rounding error of applying a factor. -/
theorem applyDerate_bound {fp : FP} {dev : Device} {bw d x : ℚ} (hb : 0 ≤ bw) (h0 : 0 ≤ d)
    (hd : d ≤ x) : applyDerate fp dev bw (some d) ≤
      bw * ((x + 1 / 16777216) * (1 + 1 / 16777216) ^ 3) := by
  have hx : 0 ≤ x := le_trans h0 hd
  have key : ∀ y : ℚ, 0 ≤ y → y ≤ bw * (x + 1 / 16777216) * (1 + 1 / 16777216) ^ 3 →
      y ≤ bw * ((x + 1 / 16777216) * (1 + 1 / 16777216) ^ 3) := by intro y _ h; linarith
  unfold applyDerate
  simp only
  split
  · rename_i hd1
    split
    · have h1 := fp.f32.fl_le_err (x := bw * d) (by positivity)
      refine le_trans h1 ?_
      have e1 : bw * d ≤ bw * (x + 1 / 16777216) := mul_le_mul_of_nonneg_left (by linarith) hb
      have e2 : (1 + 1 / 16777216 : ℚ) ≤ (1 + 1 / 16777216) ^ 3 := by norm_num
      calc bw * d * (1 + 1 / 16777216) ≤ bw * (x + 1 / 16777216) * (1 + 1 / 16777216) ^ 3 :=
            mul_le_mul e1 e2 (by norm_num) (by positivity)
        _ = _ := by ring
    · have h1 := fp.f32.fl_ge_err (x := 1 - d) (by linarith)
      have h2 : 1 - fp.f32.fl (1 - d) ≤ x + 1 / 16777216 := by
        have : (1 - d) * (1 - 1 / 16777216) ≥ (1 - d) - 1 / 16777216 := by nlinarith
        linarith
      have h2' : 0 ≤ 1 - fp.f32.fl (1 - d) := by
        have := fp.f32.fl_le_one (x := 1 - d) (by linarith); linarith
      have h3 := fp.f64.fl_le_err h2'
      have h3' := fp.f64.fl_nonneg h2'
      have h4 := fp.f64.fl_le_err (x := bw * fp.f64.fl (1 - fp.f32.fl (1 - d))) (by positivity)
      have h4' := fp.f64.fl_nonneg (x := bw * fp.f64.fl (1 - fp.f32.fl (1 - d))) (by positivity)
      have h5 := fp.f32.fl_le_err h4'
      refine le_trans h5 ?_
      have e1 : fp.f64.fl (1 - fp.f32.fl (1 - d)) ≤ (x + 1 / 16777216) * (1 + 1 / 16777216) :=
        le_trans h3 (mul_le_mul_of_nonneg_right h2 (by norm_num))
      have e2 := mul_le_mul_of_nonneg_left e1 hb
      have e3 : fp.f64.fl (bw * fp.f64.fl (1 - fp.f32.fl (1 - d))) ≤
          bw * ((x + 1 / 16777216) * (1 + 1 / 16777216)) * (1 + 1 / 16777216) :=
        le_trans h4 (mul_le_mul_of_nonneg_right e2 (by norm_num))
      have e4 := mul_le_mul_of_nonneg_right e3 (show (0 : ℚ) ≤ 1 + 1 / 16777216 by norm_num)
      refine le_trans e4 (le_of_eq ?_)
      ring
  · have h1 : 1 ≤ (x + 1 / 16777216) * (1 + 1 / 16777216 : ℚ) ^ 3 := by
      have : (1 : ℚ) ≤ x + 1 / 16777216 := by linarith
      have e2 : (1 : ℚ) ≤ (1 + 1 / 16777216) ^ 3 := by norm_num
      nlinarith
    nlinarith

/-! ### Loads -/

theorem cap_sum {use : TState → Prop} [DecidablePred use] {sot curr : Nat} {ts ts' : List TState}
    {K : ℚ} : ∀ (live : List Nat), (∀ i ∈ live, ∃ t t', ts[i]? = some t ∧ ts'[i]? = some t' ∧
      (use t' ↔ use t) ∧ share sot curr t' = share sot curr t ∧ 0 ≤ share sot curr t ∧
      (use t → t'.bw ≤ t.bw * K)) →
    loadOf use sot curr ts' live ≤ loadOf use sot curr ts live * K := by
  intro live
  induction live with
  | nil => intro _; simp [loadOf]
  | cons i live ih =>
    intro h
    obtain ⟨t, t', h1, h2, h3, h4, h5, h6⟩ := h i (by simp)
    have := ih fun j hj => h j (List.mem_cons_of_mem _ hj)
    unfold loadOf at this ⊢
    rw [List.map_cons, List.sum_cons, List.map_cons, List.sum_cons, add_mul]
    refine add_le_add ?_ this
    simp only [h1, h2]
    by_cases hu : use t
    · rw [if_pos hu, if_pos (h3.mpr hu), h4, mul_assoc]
      exact mul_le_mul_of_nonneg_left (h6 hu) h5
    · rw [if_neg hu, if_neg (fun h => hu (h3.mp h)), zero_mul]

theorem load_le_contrib {use : TState → Prop} [DecidablePred use] {sot curr : Nat}
    {ts : List TState} {c : TState → List ℚ} {L : ℚ} : ∀ (live : List Nat), (∀ i ∈ live, ∃ t,
      ts[i]? = some t ∧ 0 ≤ (c t).sum * L ∧ (use t → share sot curr t * t.bw ≤ (c t).sum * L)) →
    loadOf use sot curr ts live ≤ (contrib c ts live).sum * L := by
  intro live
  induction live with
  | nil => intro _; simp [loadOf, contrib]
  | cons i live ih =>
    intro h
    obtain ⟨t, h1, h2, h3⟩ := h i (by simp)
    have := ih fun j hj => h j (List.mem_cons_of_mem _ hj)
    rw [contrib_cons, List.sum_append, add_mul]
    unfold loadOf at this ⊢
    rw [List.map_cons, List.sum_cons]
    refine add_le_add ?_ this
    simp only [h1]
    by_cases hu : use t
    · rw [if_pos hu]; exact h3 hu
    · rw [if_neg hu]; exact h2

theorem contrib_nonneg {c : TState → List ℚ} {ts : List TState} {live : List Nat}
    (h : ∀ i ∈ live, ∀ t, ts[i]? = some t → ∀ e ∈ c t, 0 ≤ e) : ∀ e ∈ contrib c ts live, 0 ≤ e := by
  intro e he
  unfold contrib at he
  obtain ⟨i, hi, he⟩ := List.mem_flatMap.mp he
  cases ht : ts[i]? with
  | none => simp [ht] at he
  | some t => simp only [ht] at he; exact h i hi t ht e he

theorem contrib_length {c : TState → List ℚ} {ts : List TState} : ∀ (live : List Nat),
    (∀ i ∈ live, ∀ t, ts[i]? = some t → (c t).length ≤ 1) →
    (contrib c ts live).length ≤ live.length := by
  intro live
  induction live with
  | nil => intro _; simp [contrib]
  | cons i live ih =>
    intro h
    have := ih fun j hj => h j (List.mem_cons_of_mem _ hj)
    rw [contrib_cons, List.length_append, List.length_cons]
    cases ht : ts[i]? with
    | none => simp; omega
    | some t => have := h i (by simp) t ht; simp only; omega

theorem effectiveDemand_nonneg {fp : FP} {sot curr : Nat} {t : TState} (h : sot ≤ curr)
    (hb : 0 ≤ t.bw) : 0 ≤ effectiveDemand fp sot curr t := by
  unfold effectiveDemand
  have h1 : (0 : ℚ) ≤ (curr : ℚ) - sot := by
    have : (sot : ℚ) ≤ curr := by exact_mod_cast h
    linarith
  have h2 := fp.f32.fl_nonneg h1
  have h3 := fp.f32.fl_nonneg (x := (toU32 ((curr : Int) - (max sot t.start : Nat)) : ℚ)) (by positivity)
  have h4 := fp.f32.fl_nonneg (x := fp.f32.fl (toU32 ((curr : Int) - (max sot t.start : Nat)) : ℚ) /
    fp.f32.fl ((curr : ℚ) - sot)) (by positivity)
  exact fp.f32.fl_nonneg (by positivity)

theorem toU32_diff {a b : Nat} (h : b ≤ a) (ha : a < 4294967296) : toU32 ((a : Int) - b) = a - b := by
  unfold toU32
  rw [Int.emod_eq_of_lt (by omega) (by omega)]
  omega

theorem share_nonneg {sot curr : Nat} {t : TState} (h : sot ≤ curr) (hs : t.start ≤ curr) :
    0 ≤ share sot curr t := by
  unfold share
  have h1 : ((max sot t.start : Nat) : ℚ) ≤ curr := by exact_mod_cast max_le h hs
  have h2 : (sot : ℚ) ≤ curr := by exact_mod_cast h
  exact div_nonneg (by linarith) (by linarith)

theorem effectiveDemand_exact {sot curr : Nat} {t : TState} (h : sot ≤ curr) (hs : t.start ≤ curr)
    (hc : curr < 4294967296) : effectiveDemand .exact sot curr t = share sot curr t * t.bw := by
  have e : effectiveDemand .exact sot curr t =
      (toU32 ((curr : Int) - (max sot t.start : Nat)) : ℚ) / ((curr : ℚ) - sot) * t.bw := rfl
  rw [e, toU32_diff (max_le h hs) hc]
  unfold share
  rw [Nat.cast_sub (max_le h hs)]

/-- The rounding error of a demand. -/
theorem effectiveDemand_ge {fp : FP} {sot curr : Nat} {t : TState} (h : sot < curr)
    (hs : t.start ≤ curr) (hc : curr < 4294967296) (hb : 0 ≤ t.bw) :
    share sot curr t * t.bw ≤ effectiveDemand fp sot curr t *
      ((1 + 1 / 16777216) / (1 - 1 / 16777216) ^ 3) := by
  have hm : max sot t.start ≤ curr := max_le h.le hs
  have e : effectiveDemand fp sot curr t = fp.f32.fl (fp.f32.fl (fp.f32.fl
      ((curr - max sot t.start : Nat) : ℚ) / fp.f32.fl ((curr : ℚ) - sot)) * t.bw) := by
    unfold effectiveDemand
    simp only
    rw [toU32_diff hm hc]
  rw [e]
  have hc0 : (0 : ℚ) ≤ ((curr - max sot t.start : Nat) : ℚ) := by positivity
  have hd0 : (0 : ℚ) < (curr : ℚ) - sot := by
    have : (sot : ℚ) < curr := by exact_mod_cast h
    linarith
  have hshare : share sot curr t = ((curr - max sot t.start : Nat) : ℚ) / ((curr : ℚ) - sot) := by
    unfold share; rw [Nat.cast_sub hm]
  rw [hshare]
  set c : ℚ := ((curr - max sot t.start : Nat) : ℚ) with hcdef
  set D : ℚ := (curr : ℚ) - sot with hDdef
  have a1 := fp.f32.fl_ge_err hc0
  have a2 := fp.f32.fl_le_err hd0.le
  have a2' := fp.f32.fl_ge_err hd0.le
  have hD1 : 0 < fp.f32.fl D := by nlinarith
  have hc1 : 0 ≤ fp.f32.fl c := fp.f32.fl_nonneg hc0
  have a3 := fp.f32.fl_ge_err (x := fp.f32.fl c / fp.f32.fl D) (by positivity)
  have hq1 := fp.f32.fl_nonneg (x := fp.f32.fl c / fp.f32.fl D) (by positivity)
  have a4 := fp.f32.fl_ge_err (x := fp.f32.fl (fp.f32.fl c / fp.f32.fl D) * t.bw) (by positivity)
  have b1 : c / D * ((1 - 1 / 16777216) / (1 + 1 / 16777216)) ≤ fp.f32.fl c / fp.f32.fl D := by
    rw [div_mul_div_comm]
    exact div_le_div₀ hc1 a1 hD1 a2
  set u1 : ℚ := 1 - 1 / 16777216 with hu1
  set u2 : ℚ := 1 + 1 / 16777216 with hu2
  have hu1p : 0 < u1 := by rw [hu1]; norm_num
  have hu2p : 0 < u2 := by rw [hu2]; norm_num
  have hcD : 0 ≤ c / D := by positivity
  have b2 : c / D * (u1 / u2) * u1 ≤ fp.f32.fl (fp.f32.fl c / fp.f32.fl D) :=
    le_trans (mul_le_mul_of_nonneg_right b1 hu1p.le) a3
  have b3 : c / D * (u1 / u2) * u1 * t.bw * u1 ≤ fp.f32.fl (fp.f32.fl (fp.f32.fl c / fp.f32.fl D) * t.bw) :=
    le_trans (mul_le_mul_of_nonneg_right (mul_le_mul_of_nonneg_right b2 hb) hu1p.le) a4
  have e3 : c / D * t.bw = (c / D * (u1 / u2) * u1 * t.bw * u1) * (u2 / u1 ^ 3) := by
    field_simp
  rw [e3]
  exact mul_le_mul_of_nonneg_right b3 (by positivity)

theorem map_get_nonneg {es : Nat → List ℚ} {fp : FP} {l0 l : List ℚ}
    (h : ∀ k : Nat, l[k]? = (l0[k]?).map (accum fp (es k))) (h0 : ∀ x ∈ l0, 0 ≤ x)
    (hes : ∀ k, ∀ e ∈ es k, 0 ≤ e) : ∀ x ∈ l, 0 ≤ x := by
  intro x hx
  obtain ⟨k, hk⟩ := List.mem_iff_getElem?.mp hx
  rw [h k] at hk
  obtain ⟨y, hy, rfl⟩ := Option.map_eq_some_iff.mp hk
  exact accum_nonneg fp _ _ (h0 y (List.mem_of_getElem? hy)) (hes k)

theorem accumulated_nonneg {fp : FP} {dev : Device} {sot curr : Nat} {ts : List TState}
    {live : List Nat} {g : Grids} (hle : sot ≤ curr) (hs : Sane curr ts live)
    (h : Accumulated fp dev sot curr ts live (initGrids dev) g) : GridNonneg g := by
  obtain ⟨_, _, _, h1, h2, h3⟩ := h
  have hz : ∀ n, ∀ x ∈ List.replicate n (0 : ℚ), 0 ≤ x := by
    intro n x hx; rw [(List.mem_replicate.mp hx).2]
  have he : ∀ i ∈ live, ∀ t, ts[i]? = some t → 0 ≤ effectiveDemand fp sot curr t := fun i hi t ht =>
    effectiveDemand_nonneg hle (hs.2 i hi t ht).2.1
  refine ⟨map_get_nonneg h2 (hz _) fun k => contrib_nonneg fun i hi t ht e hx => ?_,
    map_get_nonneg h1 (hz _) fun k => contrib_nonneg fun i hi t ht e hx => ?_,
    map_get_nonneg h3 (hz _) fun k => contrib_nonneg fun i hi t ht e hx => ?_⟩ <;>
  · rw [(List.mem_replicate.mp hx).2]; exact he i hi t ht

end NPE
