import Verif.Proofs.Bottleneck

/-
The factor by which the congestion model slows a transfer down, in arithmetic with rounding.
-/

namespace NPE
open NPE.Spec NPE.Spec.Fluid

/-- `b` is `a` up to a fraction `e`. -/
def Near (e a b : ℚ) : Prop := a * (1 - e) ≤ b ∧ b ≤ a * (1 + e)

theorem Near.refl {e a : ℚ} (he : 0 ≤ e) (ha : 0 ≤ a) : Near e a a := ⟨by nlinarith, by nlinarith⟩

theorem Near.min {e a b c d : ℚ} (h0 : 0 ≤ e) (h1 : e ≤ 1) (h : Near e a b) (k : Near e c d) :
    Near e (min a c) (min b d) := by
  have h2 : 0 ≤ 1 - e := by linarith
  have h3 : 0 ≤ 1 + e := by linarith
  refine ⟨?_, ?_⟩
  · rw [min_mul_of_nonneg _ _ h2]
    exact min_le_min h.1 k.1
  · rw [min_mul_of_nonneg _ _ h3]
    exact min_le_min h.2 k.2

theorem Near.max {e a b c d : ℚ} (h0 : 0 ≤ e) (h1 : e ≤ 1) (h : Near e a b) (k : Near e c d) :
    Near e (max a c) (max b d) := by
  have h2 : 0 ≤ 1 - e := by linarith
  have h3 : 0 ≤ 1 + e := by linarith
  refine ⟨?_, ?_⟩
  · rw [max_mul_of_nonneg _ _ h2]
    exact max_le_max h.1 k.1
  · rw [max_mul_of_nonneg _ _ h3]
    exact max_le_max h.2 k.2

theorem Near.of_abs {a b : ℚ} (h : |b - a| ≤ a / 128) : Near (1 / 128) a b := by
  have := abs_le.mp h
  exact ⟨by linarith [this.1], by linarith [this.2]⟩

/-- The factor computed from a demand that is close to the load is close to the part of the load that is served. -/
theorem near_derate (fp : FP) {cap load x : ℚ} (hcap : 0 ≤ cap) (h0 : 0 ≤ load) (hx : Near (1 / 128) load x) :
    Near (1 / 100) (served cap load) (factor (derate fp cap x)) := by
  unfold served derate
  by_cases hz : load = 0
  · have hx0 : x = 0 := by
      obtain ⟨h1, h2⟩ := hx
      rw [hz] at h1 h2
      linarith
    rw [if_pos hz, if_pos hx0]
    exact Near.refl (by norm_num) (by norm_num)
  · have hp : 0 < load := lt_of_le_of_ne h0 (Ne.symm hz)
    have hxp : 0 < x := by
      have := hx.1
      nlinarith
    rw [if_neg hz, if_neg hxp.ne']
    show Near _ _ (fp.f32.fl (cap / x))
    have hq : 0 ≤ cap / load := by positivity
    have l1 : cap / load * (1 - 1 / 129) ≤ cap / x := by
      rw [le_div_iff₀ hxp]
      have := hx.2
      calc cap / load * (1 - 1 / 129) * x ≤ cap / load * (1 - 1 / 129) * (load * (1 + 1 / 128)) :=
            mul_le_mul_of_nonneg_left this (by positivity)
        _ = cap * (load / load) := by ring
        _ = cap := by rw [div_self hz, mul_one]
    have l2 : cap / x ≤ cap / load * (1 + 1 / 127) := by
      rw [div_le_iff₀ hxp]
      have := hx.1
      calc cap = cap * (load / load) := by rw [div_self hz, mul_one]
        _ = cap / load * (1 + 1 / 127) * (load * (1 - 1 / 128)) := by ring
        _ ≤ cap / load * (1 + 1 / 127) * x := mul_le_mul_of_nonneg_left this (by positivity)
    have hqx : 0 ≤ cap / x := by positivity
    have e1 := fp.f32.fl_le_err hqx
    have e2 := fp.f32.fl_ge_err hqx
    exact ⟨by nlinarith, by nlinarith⟩

/-- Applying a factor, up to a 2^20-th of the bandwidth. -/
theorem near_apply (fp : FP) (dev : Device) {b : ℚ} (hb : 0 ≤ b) (d : Option ℚ) (h0 : 0 ≤ factor d) :
    |applyDerate fp dev b d - b * min 1 (factor d)| ≤ b / 2097152 := by
  have hz : |b - b * 1| ≤ b / 2097152 := by simp; positivity
  cases d with
  | none => simpa [applyDerate, factor] using hz
  | some d =>
    have hd0 : 0 ≤ d := h0
    unfold applyDerate factor
    simp only
    by_cases h : d < 1
    · rw [if_pos h, min_eq_right h.le]
      have hbd : 0 ≤ b * d := mul_nonneg hb hd0
      have hbd1 : b * d ≤ b := by nlinarith
      split
      · have e1 := fp.f32.fl_le_err hbd
        have e2 := fp.f32.fl_ge_err hbd
        rw [abs_le]
        exact ⟨by nlinarith, by nlinarith⟩
      · have h1 : 0 ≤ 1 - d := by linarith
        have a1 := fp.f32.fl_le_err h1
        have a2 := fp.f32.fl_ge_err h1
        have a3 : fp.f32.fl (1 - d) ≤ 1 := fp.f32.fl_le_one (by linarith)
        generalize fp.f32.fl (1 - d) = x at a1 a2 a3 ⊢
        have h2 : 0 ≤ 1 - x := by linarith
        have b1 := fp.f64.fl_le_err h2
        have b2 := fp.f64.fl_ge_err h2
        have b3 : fp.f64.fl (1 - x) ≤ 1 := by
          have x0 : 0 ≤ x := le_trans (by nlinarith) a2
          exact fp.f64.fl_le_one (by linarith)
        have b4 := fp.f64.fl_nonneg h2
        generalize fp.f64.fl (1 - x) = y at b1 b2 b3 b4 ⊢
        have y1 : y ≤ d + 3 / 16777216 := by linarith
        have y2 : d - 3 / 16777216 ≤ y := by linarith
        have h3 : 0 ≤ b * y := mul_nonneg hb b4
        have c1 := fp.f64.fl_le_err h3
        have c2 := fp.f64.fl_ge_err h3
        have c3 := fp.f64.fl_nonneg h3
        have h4 : b * y ≤ b := by nlinarith
        have h5 : b * y ≤ b * (d + 3 / 16777216) := mul_le_mul_of_nonneg_left y1 hb
        have h6 : b * (d - 3 / 16777216) ≤ b * y := mul_le_mul_of_nonneg_left y2 hb
        generalize fp.f64.fl (b * y) = z at c1 c2 c3 ⊢
        have e1 := fp.f32.fl_le_err c3
        have e2 := fp.f32.fl_ge_err c3
        rw [abs_le]
        exact ⟨by linarith, by linarith⟩
    · rw [if_neg h, min_eq_left (not_lt.mp h)]
      exact hz

theorem maxLinkDemand_near {g : Grids} (f : Int → ℚ) : ∀ (route : List Int) (m0 m1 m : ℚ),
    (∀ l ∈ route, ∃ x, g.link[l.toNat]? = some x ∧ Near (1 / 128) (f l) x) → Near (1 / 128) m1 m0 →
    Out.foldlM (fun m l => readAt g.link l >>= fun x => .ok (max m x)) m0 route = .ok m →
    Near (1 / 128) ((route.map f).foldl max m1) m := by
  intro route
  induction route with
  | nil => intro m0 m1 m _ h0 h; rw [← Out.ok.inj h]; exact h0
  | cons l route ih =>
    intro m0 m1 m hall h0 h
    rw [Out.foldlM_cons] at h
    obtain ⟨m2, h2, h⟩ := Out.bind_eq_ok.mp h
    obtain ⟨x, hx, h2⟩ := Out.bind_eq_ok.mp h2
    obtain ⟨y, hy, hyb⟩ := hall l (by simp)
    have := (readAt_ok.mp hx).2
    rw [hy] at this
    have e := Option.some.inj this
    subst e
    rw [← Out.ok.inj h2] at h
    rw [List.map_cons, List.foldl_cons]
    exact ih _ _ m (fun k hk => hall k (List.mem_cons_of_mem _ hk)) (h0.max (by norm_num) (by norm_num) hyb) h

/-- With rounding the factor of `least_formula` is met up to a part in 100 and a 2^21-th of the bandwidth. -/
theorem modelCongestion_least_rounded {fp : FP} {dev : Device} (hd : DeviceOk dev) (hc : Capacities dev)
    {sot curr : Nat} (hlt : sot < curr) (hcurr : curr < 4294967296) {ts ts' : List TState} {live : List Nat}
    {g : Grids} (hs : Sane curr ts live) (hr : ∀ i ∈ live, ∀ t, ts[i]? = some t → RectsOk t.params)
    (h : modelCongestion fp dev sot curr ts live = .ok (ts', g)) {i : Nat} (hi : i ∈ live) {t t' : TState}
    (ht : ts[i]? = some t) (ht' : ts'[i]? = some t')
    (huse : ∀ cap w, Passes dev t cap w → uses w ts live ≤ 65536) :
    ∃ q : ℚ, |t'.bw - t.bw * q| ≤ t.bw * (q / 100 + 1 / 2097152) ∧ 0 ≤ q ∧ q ≤ 1 ∧
      (∀ cap w, Passes dev t cap w → q ≤ served cap (offered w sot curr ts live)) ∧
      (q = 1 ∨ ∃ cap w, Passes dev t cap w ∧ q = served cap (offered w sot curr ts live)) := by
  obtain ⟨q, eq, h1, h2, h3⟩ := least_formula (dev := dev) hc.1 hlt.le hs t
  have hoff : ∀ w, 0 ≤ offered w sot curr ts live := fun w =>
    offered_nonneg fun j hj u hu => mul_nonneg (share_nonneg hlt.le (hs.2 j hj u hu).1) (hs.2 j hj u hu).2.1
  have hinj : 0 ≤ t.params.injectionRate := (hs.2 i hi t ht).2.2
  have hserv : ∀ cap load : ℚ, 0 ≤ cap → 0 ≤ load → 0 ≤ served cap load := by
    intro cap load a b
    unfold served
    split
    · norm_num
    · positivity
  have hq0 : 0 ≤ q := by
    rcases h3 with e | ⟨cap, w, hp, e⟩
    · rw [e]; norm_num
    · rw [e]
      cases hp with
      | link l hl => exact hserv _ _ hc.1 (hoff _)
      | source => exact hserv _ _ hinj (hoff _)
      | sink d a _ ha => exact hserv _ _ (absRate_nonneg hc ha) (hoff _)
  refine ⟨q, ?_, hq0, h1, h2, h3⟩
  obtain ⟨p1, p2, p3⟩ := modelCongestion_parts hs.1 h
  have hnn : GridNonneg g := accumulated_nonneg hlt.le hs p2
  obtain ⟨_, _, hsrcL, hsinkL⟩ := Props.C66_demands_rounded fp dev hd sot curr hlt hcurr ts ts' live g hs.1
    (fun j hj u hu => ⟨(hs.2 j hj u hu).1, (hs.2 j hj u hu).2.1, hr j hj u hu⟩) h
  obtain ⟨u, hu, hin⟩ := p1 i hi
  rw [ht] at hu
  have := Option.some.inj hu
  subst this
  have hlink : ∀ l ∈ t.route, ∃ x, g.link[l.toNat]? = some x ∧
      Near (1 / 128) (offered (fun u => u.route.count l) sot curr ts live) x := by
    intro l hlm
    obtain ⟨_, hr, _⟩ := hin
    obtain ⟨l0, l1⟩ := hr l hlm
    have l2 : (initGrids dev).link[l.toNat]? = some 0 := by
      have : l.toNat < (initGrids dev).link.length := by omega
      simp [initGrids, List.getElem?_replicate] at this ⊢
      exact this
    rw [p2.2.2.2.2.1, l2, Option.map_some]
    refine ⟨_, rfl, .of_abs (entry_close hlt hcurr (fun j hj => ?_) (huse _ _ (.link l hlm)))⟩
    obtain ⟨u1, c1, _⟩ := p1 j hj
    refine ⟨u1, c1, (hs.2 j hj u1 c1).1, (hs.2 j hj u1 c1).2.1, ?_⟩
    unfold linkC
    rw [Int.toNat_of_nonneg l0]
  obtain ⟨t2, b, d1, d2, d3⟩ := p3.2.2 i hi
  rw [ht] at d1
  have := Option.some.inj d1
  subst this
  rw [ht'] at d3
  rw [Option.some.inj d3]
  show |b - _| ≤ _
  unfold deratedBw at d2
  obtain ⟨d, hdr, d2⟩ := Out.bind_eq_ok.mp d2
  rw [← Out.ok.inj d2]
  have hb : 0 ≤ t.bw := (hs.2 i hi t ht).2.1
  have hn : Near (1 / 100) q (min 1 (factor d)) := by
    unfold overallDerate at hdr
    obtain ⟨m, hm, hdr⟩ := Out.bind_eq_ok.mp hdr
    obtain ⟨src, hsrc, hdr⟩ := Out.bind_eq_ok.mp hdr
    obtain ⟨sd, hsd, hdr⟩ := Out.bind_eq_ok.mp hdr
    obtain ⟨sk, hsk, hdr⟩ := Out.bind_eq_ok.mp hdr
    have n1 : Near (1 / 100) 1 1 := Near.refl (by norm_num) (by norm_num)
    have e1 : Near (1 / 128)
        ((t.route.map fun l => offered (fun u => u.route.count l) sot curr ts live).foldl max 0) m :=
      maxLinkDemand_near (fun l => offered (fun u => u.route.count l) sot curr ts live) _ 0 0 m hlink
        (Near.refl (by norm_num) le_rfl) hm
    have e2 : Near (1 / 128) (offered (leaves dev t.params.noc t.params.src) sot curr ts live) sd := by
      obtain ⟨X, x1, x2⟩ := hsrcL _ _ _ hsrc (huse _ _ .source)
      rw [(readAt_ok.mp hsd).2] at x1
      rw [Option.some.inj x1]
      exact .of_abs x2
    have e3 : Near (1 / 100) (match t.params.dst with
      | .unicast d =>
        match dev.getSinkAbsorptionRate d with
        | .ok a => served a (offered (reaches dev t.params.noc d) sot curr ts live)
        | _ => 1
      | .mcast _ => 1) (factor sk) := by
      unfold sinkDerate at hsk
      cases hdst : t.params.dst with
      | unicast c =>
        rw [hdst] at hsk
        simp only at hsk ⊢
        obtain ⟨k, hk, hsk⟩ := Out.bind_eq_ok.mp hsk
        obtain ⟨x, hx, hsk⟩ := Out.bind_eq_ok.mp hsk
        obtain ⟨a, ha, hsk⟩ := Out.bind_eq_ok.mp hsk
        rw [← Out.ok.inj hsk, ha]
        obtain ⟨X, x1, x2⟩ := hsinkL _ _ _ hk (huse _ _ (.sink c a hdst ha))
        rw [(readAt_ok.mp hx).2] at x1
        rw [Option.some.inj x1]
        exact near_derate fp (absRate_nonneg hc ha) (hoff _) (.of_abs x2)
      | mcast gs =>
        rw [hdst] at hsk
        simp only at hsk ⊢
        obtain ⟨ids, hids, hsk⟩ := Out.bind_eq_ok.mp hsk
        obtain ⟨m, hm, hsk⟩ := Out.bind_eq_ok.mp hsk
        rw [← Out.ok.inj hsk, minNiu_zero hnn.2.1 _ _ hm]
        exact n1
    have k1 := near_derate fp hc.1 (le_foldl_max_init _ _) e1
    have k2 := near_derate fp hinj (hoff _) e2
    have key := n1.min (by norm_num) (by norm_num) (k1.min (by norm_num) (by norm_num)
      (k2.min (by norm_num) (by norm_num) e3))
    have e4 : min 1 (factor d) = min 1 (min (factor (derate fp dev.linkBw m))
        (min (factor (derate fp t.params.injectionRate sd)) (factor sk))) := by
      rw [← Out.ok.inj hdr, min_factor, min_left_comm, min_factor, ← min_left_comm]
    rw [e4, eq]
    exact key
  have hf0 : 0 ≤ factor d := by
    have := hn.1
    have h5 : 0 ≤ min 1 (factor d) := le_trans (by nlinarith) this
    exact le_trans h5 (min_le_right _ _)
  have ha := near_apply fp dev hb d hf0
  generalize applyDerate fp dev t.bw d = z at ha ⊢
  have m1 := mul_le_mul_of_nonneg_left hn.1 hb
  have m2 := mul_le_mul_of_nonneg_left hn.2 hb
  rw [abs_le] at ha ⊢
  exact ⟨by nlinarith [ha.1], by nlinarith [ha.2]⟩

/-- If some point is overloaded, the least factor is that of an overloaded point. -/
theorem worst_of_least {dev : Device} (hc : Capacities dev) {sot curr : Nat} (hle : sot ≤ curr) {ts : List TState}
    {live : List Nat} (hs : Sane curr ts live) {i : Nat} (hi : i ∈ live) {t : TState} (ht : ts[i]? = some t) {q : ℚ}
    (h3 : ∀ cap w, Passes dev t cap w → q ≤ served cap (offered w sot curr ts live))
    (h4 : q = 1 ∨ ∃ cap w, Passes dev t cap w ∧ q = served cap (offered w sot curr ts live))
    (hover : ∃ cap w, Passes dev t cap w ∧ cap < offered w sot curr ts live) :
    ∃ cap w, Passes dev t cap w ∧ cap < offered w sot curr ts live ∧ q = cap / offered w sot curr ts live ∧
      ∀ cap' w', Passes dev t cap' w' → cap' < offered w' sot curr ts live →
        q ≤ cap' / offered w' sot curr ts live := by
  have h0 : ∀ w, 0 ≤ offered w sot curr ts live := fun w =>
    offered_nonneg fun j hj u hu => mul_nonneg (share_nonneg hle (hs.2 j hj u hu).1) (hs.2 j hj u hu).2.1
  have hcap : ∀ cap w, Passes dev t cap w → 0 ≤ cap := by
    intro cap w hp
    cases hp with
    | link l _ => exact hc.1
    | source => exact (hs.2 i hi t ht).2.2
    | sink d a _ ha => exact absRate_nonneg hc ha
  have hlt : ∀ cap w, Passes dev t cap w → cap < offered w sot curr ts live →
      served cap (offered w sot curr ts live) = cap / offered w sot curr ts live ∧
      cap / offered w sot curr ts live < 1 := by
    intro cap w hp hl
    have hpos : 0 < offered w sot curr ts live := lt_of_le_of_lt (hcap cap w hp) hl
    refine ⟨?_, (div_lt_one hpos).mpr hl⟩
    unfold served
    rw [if_neg hpos.ne']
  obtain ⟨cap0, w0, hp0, hl0⟩ := hover
  have hq1 : q < 1 := by
    have := h3 cap0 w0 hp0
    rw [(hlt cap0 w0 hp0 hl0).1] at this
    exact lt_of_le_of_lt this (hlt cap0 w0 hp0 hl0).2
  rcases h4 with h4 | ⟨cap, w, hp, h4⟩
  · exact absurd h4 hq1.ne
  · have hne : offered w sot curr ts live ≠ 0 := by
      intro hz
      unfold served at h4
      rw [if_pos hz] at h4
      exact hq1.ne h4
    have hpos : 0 < offered w sot curr ts live := lt_of_le_of_ne (h0 w) (Ne.symm hne)
    have h5 : q = cap / offered w sot curr ts live := by
      rw [h4]; unfold served; rw [if_neg hne]
    refine ⟨cap, w, hp, (div_lt_one hpos).mp (by rw [← h5]; exact hq1), h5, ?_⟩
    intro cap' w' hp' hl'
    rw [← (hlt cap' w' hp' hl').1]
    exact h3 cap' w' hp'

end NPE
