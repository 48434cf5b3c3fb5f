import Verif.Proofs.FluidShared
import Verif.Spec.Bottleneck

/-
The factor by which the congestion model slows a transfer down.
-/

namespace NPE
open NPE.Spec NPE.Spec.Fluid

theorem modelCongestion_factor {dev : Device} (hd : DeviceOk dev) {sot curr : Nat} (hle : sot ≤ curr)
    (hcurr : curr < 4294967296) {ts ts' : List TState} {live : List Nat} {g : Grids} (hs : Sane curr ts live)
    (hr : ∀ i ∈ live, ∀ t, ts[i]? = some t → RectsOk t.params)
    (h : modelCongestion .exact dev sot curr ts live = .ok (ts', g)) {i : Nat} (hi : i ∈ live) {t t' : TState}
    (ht : ts[i]? = some t) (ht' : ts'[i]? = some t') :
    t'.bw = t.bw * min 1 (min (served dev.linkBw
        ((t.route.map fun l => offered (fun u => u.route.count l) sot curr ts live).foldl max 0))
      (min (served t.params.injectionRate (offered (leaves dev t.params.noc t.params.src) sot curr ts live))
        (match t.params.dst with
        | .unicast d =>
          match dev.getSinkAbsorptionRate d with
          | .ok a => served a (offered (reaches dev t.params.noc d) sot curr ts live)
          | _ => 1
        | .mcast _ => 1))) := by
  obtain ⟨p1, p2, p3⟩ := modelCongestion_parts hs.1 h
  have hl : dev.nLinks ≤ 32768 := hd.ids
  have hnn : GridNonneg g := accumulated_nonneg hle hs p2
  obtain ⟨_, _, hsrcL, hsinkL⟩ := Props.C66_demands dev hd sot curr hle hcurr ts ts' live g hs.1
    (fun j hj u hu => ⟨(hs.2 j hj u hu).1, hr j hj u hu⟩) h
  obtain ⟨u, hu, hin⟩ := p1 i hi
  rw [ht] at hu
  have := Option.some.inj hu
  subst this
  have hlink : ∀ l ∈ t.route, g.link[l.toNat]? = some (offered (fun u => u.route.count l) sot curr ts live) := by
    intro l hlm
    obtain ⟨_, hr, _⟩ := hin
    obtain ⟨l0, l1⟩ := hr l hlm
    have l2 : (initGrids dev).link[l.toNat]? = some 0 := by
      have : l.toNat < (initGrids dev).link.length := by omega
      simp [initGrids, List.getElem?_replicate] at this ⊢
      exact this
    rw [p2.2.2.2.2.1, l2, Option.map_some, accum_exact, zero_add,
      contrib_offered (w := fun u => u.route.count l)]
    intro j hj
    obtain ⟨u1, c1, _⟩ := p1 j hj
    refine ⟨u1, c1, ?_⟩
    unfold linkC
    rw [effectiveDemand_exact hle (hs.2 j hj u1 c1).1 hcurr, Int.toNat_of_nonneg l0]
  obtain ⟨t2, b, d1, d2, d3⟩ := p3.2.2 i hi
  rw [ht] at d1
  have := Option.some.inj d1
  subst this
  rw [ht'] at d3
  rw [Option.some.inj d3]
  show b = _
  unfold deratedBw at d2
  obtain ⟨d, hdr, d2⟩ := Out.bind_eq_ok.mp d2
  rw [← Out.ok.inj d2, applyDerate_factor]
  congr 1
  unfold overallDerate at hdr
  obtain ⟨m, hm, hdr⟩ := Out.bind_eq_ok.mp hdr
  obtain ⟨src, hsrc, hdr⟩ := Out.bind_eq_ok.mp hdr
  obtain ⟨sd, hsd, hdr⟩ := Out.bind_eq_ok.mp hdr
  obtain ⟨sk, hsk, hdr⟩ := Out.bind_eq_ok.mp hdr
  rw [← Out.ok.inj hdr, min_factor, factor_derate]
  have e1 : m = (t.route.map fun l => offered (fun u => u.route.count l) sot curr ts live).foldl max 0 :=
    maxLinkDemand_eq _ _ _ hlink hm
  have e2 : sd = offered (leaves dev t.params.noc t.params.src) sot curr ts live := by
    have := hsrcL _ _ _ hsrc
    rw [(readAt_ok.mp hsd).2] at this
    exact Option.some.inj this
  have e3 : min 1 (factor sk) = min 1 (match t.params.dst with
    | .unicast d =>
      match dev.getSinkAbsorptionRate d with
      | .ok a => served a (offered (reaches dev t.params.noc d) sot curr ts live)
      | _ => 1
    | .mcast _ => 1) := by
    unfold sinkDerate at hsk
    cases hdst : t.params.dst with
    | unicast c =>
      rw [hdst] at hsk
      simp only at hsk ⊢
      obtain ⟨k, hk, hsk⟩ := Out.bind_eq_ok.mp hsk
      obtain ⟨x, hx, hsk⟩ := Out.bind_eq_ok.mp hsk
      obtain ⟨a, ha, hsk⟩ := Out.bind_eq_ok.mp hsk
      rw [← Out.ok.inj hsk, ha, factor_derate]
      have := hsinkL _ _ _ hk
      rw [(readAt_ok.mp hx).2] at this
      rw [Option.some.inj this]
    | mcast gs =>
      rw [hdst] at hsk
      simp only at hsk ⊢
      obtain ⟨ids, hids, hsk⟩ := Out.bind_eq_ok.mp hsk
      obtain ⟨m, hm, hsk⟩ := Out.bind_eq_ok.mp hsk
      rw [← Out.ok.inj hsk, minNiu_zero hnn.2.1 _ _ hm]
      rfl
  have e4 : min 1 (min (served dev.linkBw m) (factor (minDerate (derate .exact t.params.injectionRate sd) sk))) =
      min (served dev.linkBw m) (min 1 (min (served t.params.injectionRate sd) (factor sk))) := by
    rw [min_left_comm, min_factor, factor_derate]
  rw [e4, min_left_comm 1 (served t.params.injectionRate sd), e3, e1, e2]
  have e5 : ∀ a b y : ℚ, min a (min b (min 1 y)) = min 1 (min a (min b y)) := by
    intro a b y
    rw [min_left_comm b 1, min_left_comm a 1]
  exact e5 _ _ _

theorem foldl_max_mem : ∀ (l : List ℚ) (a : ℚ), l.foldl max a = a ∨ l.foldl max a ∈ l := by
  intro l
  induction l with
  | nil => intro a; exact .inl rfl
  | cons x l ih =>
    intro a
    rw [List.foldl_cons]
    rcases ih (max a x) with h | h
    · rw [h]
      rcases max_choice a x with h | h
      · exact .inl h
      · exact .inr (by rw [h]; simp)
    · exact .inr (List.mem_cons_of_mem _ h)

theorem le_foldl_max_init : ∀ (l : List ℚ) (a : ℚ), a ≤ l.foldl max a := by
  intro l
  induction l with
  | nil => intro a; exact le_rfl
  | cons x l ih => intro a; exact le_trans (le_max_left _ _) (ih _)

theorem mem_le_foldl_max : ∀ (l : List ℚ) (a x : ℚ), x ∈ l → x ≤ l.foldl max a := by
  intro l
  induction l with
  | nil => intro a x h; cases h
  | cons y l ih =>
    intro a x h
    rcases List.mem_cons.mp h with rfl | h
    · exact le_trans (le_max_right _ _) (le_foldl_max_init _ _)
    · exact ih _ _ h

/-- The same in terms of what the transfer passes: the factor is at most 1 and at most what each point serves, and is
1 or what one of them serves. -/
theorem least_formula {dev : Device} (hc : 0 ≤ dev.linkBw) {sot curr : Nat} (hle : sot ≤ curr) {ts : List TState}
    {live : List Nat} (hs : Sane curr ts live) (t : TState) :
    ∃ q : ℚ, q = min 1 (min (served dev.linkBw
        ((t.route.map fun l => offered (fun u => u.route.count l) sot curr ts live).foldl max 0))
      (min (served t.params.injectionRate (offered (leaves dev t.params.noc t.params.src) sot curr ts live))
        (match t.params.dst with
        | .unicast d =>
          match dev.getSinkAbsorptionRate d with
          | .ok a => served a (offered (reaches dev t.params.noc d) sot curr ts live)
          | _ => 1
        | .mcast _ => 1))) ∧ q ≤ 1 ∧
      (∀ cap w, Passes dev t cap w → q ≤ served cap (offered w sot curr ts live)) ∧
      (q = 1 ∨ ∃ cap w, Passes dev t cap w ∧ q = served cap (offered w sot curr ts live)) := by
  refine ⟨_, rfl, min_le_left _ _, ?_, ?_⟩
  · intro cap w hp
    cases hp with
    | link l hl =>
      have h0 : 0 ≤ offered (fun u => u.route.count l) sot curr ts live :=
        offered_nonneg fun j hj u hu => mul_nonneg (share_nonneg hle (hs.2 j hj u hu).1) (hs.2 j hj u hu).2.1
      refine le_trans (min_le_min_left 1 (min_le_left _ _)) ?_
      have hm := mem_le_foldl_max (t.route.map fun l => offered (fun u => u.route.count l) sot curr ts live) 0 _
        (List.mem_map.mpr ⟨l, hl, rfl⟩)
      generalize (t.route.map fun l => offered (fun u => u.route.count l) sot curr ts live).foldl max 0 = M at hm ⊢
      by_cases hz : offered (fun u => u.route.count l) sot curr ts live = 0
      · unfold served
        rw [if_pos hz]
        exact min_le_left _ _
      · have hp : 0 < offered (fun u => u.route.count l) sot curr ts live := lt_of_le_of_ne h0 (Ne.symm hz)
        unfold served
        rw [if_neg hz, if_neg (lt_of_lt_of_le hp hm).ne']
        exact le_trans (min_le_right _ _) (div_le_div_of_nonneg_left hc hp hm)
    | source => exact le_trans (min_le_right _ _) (le_trans (min_le_right _ _) (min_le_left _ _))
    | sink d a h1 h2 =>
      refine le_trans (min_le_right _ _) (le_trans (min_le_right _ _) (le_trans (min_le_right _ _) ?_))
      rw [h1]
      simp only [h2]
      exact le_rfl
  · rcases min_choice (1 : ℚ) (min (served dev.linkBw
        ((t.route.map fun l => offered (fun u => u.route.count l) sot curr ts live).foldl max 0))
      (min (served t.params.injectionRate (offered (leaves dev t.params.noc t.params.src) sot curr ts live))
        (match t.params.dst with
        | .unicast d =>
          match dev.getSinkAbsorptionRate d with
          | .ok a => served a (offered (reaches dev t.params.noc d) sot curr ts live)
          | _ => 1
        | .mcast _ => 1))) with e | e
    · exact .inl e
    rw [e]
    rcases min_choice (served dev.linkBw
        ((t.route.map fun l => offered (fun u => u.route.count l) sot curr ts live).foldl max 0))
      (min (served t.params.injectionRate (offered (leaves dev t.params.noc t.params.src) sot curr ts live))
        (match t.params.dst with
        | .unicast d =>
          match dev.getSinkAbsorptionRate d with
          | .ok a => served a (offered (reaches dev t.params.noc d) sot curr ts live)
          | _ => 1
        | .mcast _ => 1)) with e | e
    · rw [e]
      rcases foldl_max_mem (t.route.map fun l => offered (fun u => u.route.count l) sot curr ts live) 0 with f | f
      · rw [f]; exact .inl rfl
      · obtain ⟨l, hl, f⟩ := List.mem_map.mp f
        rw [← f]
        exact .inr ⟨_, _, .link l hl, rfl⟩
    rw [e]
    rcases min_choice (served t.params.injectionRate (offered (leaves dev t.params.noc t.params.src) sot curr ts live))
        (match t.params.dst with
        | .unicast d =>
          match dev.getSinkAbsorptionRate d with
          | .ok a => served a (offered (reaches dev t.params.noc d) sot curr ts live)
          | _ => 1
        | .mcast _ => 1) with e | e
    · rw [e]
      exact .inr ⟨_, _, .source, rfl⟩
    rw [e]
    cases hdst : t.params.dst with
    | mcast gs => exact .inl rfl
    | unicast d =>
      simp only
      cases ha : dev.getSinkAbsorptionRate d with
      | ok a => exact .inr ⟨_, _, .sink d a hdst ha, rfl⟩
      | _ => exact .inl rfl

theorem modelCongestion_least {dev : Device} (hd : DeviceOk dev) (hc : 0 ≤ dev.linkBw) {sot curr : Nat}
    (hle : sot ≤ curr) (hcurr : curr < 4294967296) {ts ts' : List TState} {live : List Nat} {g : Grids}
    (hs : Sane curr ts live) (hr : ∀ i ∈ live, ∀ t, ts[i]? = some t → RectsOk t.params)
    (h : modelCongestion .exact dev sot curr ts live = .ok (ts', g)) {i : Nat} (hi : i ∈ live) {t t' : TState}
    (ht : ts[i]? = some t) (ht' : ts'[i]? = some t') :
    ∃ q : ℚ, t'.bw = t.bw * q ∧ q ≤ 1 ∧
      (∀ cap w, Passes dev t cap w → q ≤ served cap (offered w sot curr ts live)) ∧
      (q = 1 ∨ ∃ cap w, Passes dev t cap w ∧ q = served cap (offered w sot curr ts live)) := by
  have hf := modelCongestion_factor hd hle hcurr hs hr h hi ht ht'
  obtain ⟨q, e, h1, h2, h3⟩ := least_formula (dev := dev) hc hle hs t
  exact ⟨q, by rw [hf, e], h1, h2, h3⟩

/-- A factor that reduces nothing. -/
def Free (o : Option ℚ) : Prop := ∀ d, o = some d → 1 ≤ d

theorem free_derate (fp : FP) {limit x : ℚ} (h0 : 0 ≤ x) (h : x ≤ limit) : Free (derate fp limit x) := by
  intro d hd
  unfold derate at hd
  split at hd
  · cases hd
  · next hne =>
    rw [← Option.some.inj hd]
    have h1 : (1 : ℚ) ≤ limit / x := (one_le_div (lt_of_le_of_ne h0 (Ne.symm hne))).mpr h
    have := fp.f32.mono h1
    rwa [fp.f32.fl_one] at this

theorem free_min {a b : Option ℚ} (ha : Free a) (hb : Free b) : Free (minDerate a b) := by
  cases a with
  | none => exact hb
  | some x =>
    cases b with
    | none => exact ha
    | some y =>
      intro d hd
      rw [← Option.some.inj hd]
      exact le_min (ha x rfl) (hb y rfl)

theorem free_apply (fp : FP) (dev : Device) {b : ℚ} {d : Option ℚ} (h : Free d) : applyDerate fp dev b d = b := by
  cases d with
  | none => rfl
  | some d =>
    unfold applyDerate
    simp only
    rw [if_neg (not_lt.mpr (h d rfl))]

theorem maxLinkDemand_bounds {g : Grids} {b : ℚ} : ∀ (route : List Int) (m0 m : ℚ),
    (∀ l ∈ route, ∃ x, g.link[l.toNat]? = some x ∧ x ≤ b) → 0 ≤ m0 → m0 ≤ b →
    Out.foldlM (fun m l => readAt g.link l >>= fun x => .ok (max m x)) m0 route = .ok m → 0 ≤ m ∧ m ≤ b := by
  intro route
  induction route with
  | nil => intro m0 m _ h0 h1 h; rw [← Out.ok.inj h]; exact ⟨h0, h1⟩
  | cons l route ih =>
    intro m0 m hall h0 h1 h
    rw [Out.foldlM_cons] at h
    obtain ⟨m1, h2, h⟩ := Out.bind_eq_ok.mp h
    obtain ⟨x, hx, h2⟩ := Out.bind_eq_ok.mp h2
    obtain ⟨y, hy, hyb⟩ := hall l (by simp)
    have := (readAt_ok.mp hx).2
    rw [hy] at this
    have e := Option.some.inj this
    subst e
    rw [← Out.ok.inj h2] at h
    exact ih _ m (fun k hk => hall k (List.mem_cons_of_mem _ hk)) (le_trans h0 (le_max_left _ _)) (max_le h1 hyb) h

theorem keeps_rounded {fp : FP} {dev : Device} (hd : DeviceOk dev) {sot curr : Nat} (hlt : sot < curr)
    (hcurr : curr < 4294967296) {ts ts' : List TState} {live : List Nat} {g : Grids} (hs : Sane curr ts live)
    (hr : ∀ i ∈ live, ∀ t, ts[i]? = some t → RectsOk t.params)
    (h : modelCongestion fp dev sot curr ts live = .ok (ts', g)) {i : Nat} (hi : i ∈ live) {t t' : TState}
    (ht : ts[i]? = some t) (ht' : ts'[i]? = some t')
    (hfree : ∀ cap w, Passes dev t cap w → uses w ts live ≤ 65536 ∧
      offered w sot curr ts live * (1 + 1 / 128) ≤ cap) : t'.bw = t.bw := by
  obtain ⟨p1, p2, p3⟩ := modelCongestion_parts hs.1 h
  have hnn : GridNonneg g := accumulated_nonneg hlt.le hs p2
  obtain ⟨_, _, hsrcL, hsinkL⟩ := Props.C66_demands_rounded fp dev hd sot curr hlt hcurr ts ts' live g hs.1
    (fun j hj u hu => ⟨(hs.2 j hj u hu).1, (hs.2 j hj u hu).2.1, hr j hj u hu⟩) h
  have hle : ∀ {X : ℚ} {w : TState → Nat} {cap : ℚ},
      |X - offered w sot curr ts live| ≤ offered w sot curr ts live / 128 →
      offered w sot curr ts live * (1 + 1 / 128) ≤ cap → X ≤ cap := by
    intro X w cap h1 h2
    have := (abs_le.mp h1).2
    linarith
  obtain ⟨u, hu, hin⟩ := p1 i hi
  rw [ht] at hu
  have := Option.some.inj hu
  subst this
  have hlink : ∀ l ∈ t.route, ∃ x, g.link[l.toNat]? = some x ∧ x ≤ dev.linkBw := by
    intro l hlm
    obtain ⟨_, hr, _⟩ := hin
    obtain ⟨l0, l1⟩ := hr l hlm
    have l2 : (initGrids dev).link[l.toNat]? = some 0 := by
      have : l.toNat < (initGrids dev).link.length := by omega
      simp [initGrids, List.getElem?_replicate] at this ⊢
      exact this
    obtain ⟨f1, f2⟩ := hfree _ _ (.link l hlm)
    rw [p2.2.2.2.2.1, l2, Option.map_some]
    refine ⟨_, rfl, hle (entry_close hlt hcurr (fun j hj => ?_) f1) f2⟩
    obtain ⟨u1, c1, _⟩ := p1 j hj
    refine ⟨u1, c1, (hs.2 j hj u1 c1).1, (hs.2 j hj u1 c1).2.1, ?_⟩
    unfold linkC
    rw [Int.toNat_of_nonneg l0]
  obtain ⟨t2, b, d1, d2, d3⟩ := p3.2.2 i hi
  rw [ht] at d1
  have := Option.some.inj d1
  subst this
  rw [ht'] at d3
  rw [Option.some.inj d3]
  show b = _
  unfold deratedBw at d2
  obtain ⟨d, hdr, d2⟩ := Out.bind_eq_ok.mp d2
  rw [← Out.ok.inj d2]
  refine free_apply fp dev ?_
  unfold overallDerate at hdr
  obtain ⟨m, hm, hdr⟩ := Out.bind_eq_ok.mp hdr
  obtain ⟨src, hsrc, hdr⟩ := Out.bind_eq_ok.mp hdr
  obtain ⟨sd, hsd, hdr⟩ := Out.bind_eq_ok.mp hdr
  obtain ⟨sk, hsk, hdr⟩ := Out.bind_eq_ok.mp hdr
  rw [← Out.ok.inj hdr]
  refine free_min ?_ (free_min ?_ ?_)
  · cases hrt : t.route with
    | nil =>
      rw [hrt] at hm
      intro d hd
      rw [← Out.ok.inj hm] at hd
      simp [derate] at hd
    | cons l r =>
      have hb : 0 ≤ dev.linkBw := by
        have h0 : 0 ≤ offered (fun u => u.route.count l) sot curr ts live :=
          offered_nonneg fun j hj u hu => mul_nonneg (share_nonneg hlt.le (hs.2 j hj u hu).1) (hs.2 j hj u hu).2.1
        have := (hfree _ _ (.link l (by rw [hrt]; simp))).2
        nlinarith
      obtain ⟨m1, m2⟩ := maxLinkDemand_bounds _ 0 m hlink le_rfl hb hm
      exact free_derate fp m1 m2
  · obtain ⟨f1, f2⟩ := hfree _ _ .source
    obtain ⟨X, x1, x2⟩ := hsrcL _ _ _ hsrc f1
    have hx := (readAt_ok.mp hsd).2
    have h0 := hnn.2.1 sd (List.mem_of_getElem? hx)
    rw [hx] at x1
    have e := Option.some.inj x1
    subst e
    exact free_derate fp h0 (hle x2 f2)
  · unfold sinkDerate at hsk
    cases hdst : t.params.dst with
    | unicast c =>
      rw [hdst] at hsk
      simp only at hsk
      obtain ⟨k, hk, hsk⟩ := Out.bind_eq_ok.mp hsk
      obtain ⟨x, hx, hsk⟩ := Out.bind_eq_ok.mp hsk
      obtain ⟨a, ha, hsk⟩ := Out.bind_eq_ok.mp hsk
      rw [← Out.ok.inj hsk]
      obtain ⟨f1, f2⟩ := hfree _ _ (.sink c a hdst ha)
      obtain ⟨X, x1, x2⟩ := hsinkL _ _ _ hk f1
      have hx := (readAt_ok.mp hx).2
      have h0 := hnn.2.1 x (List.mem_of_getElem? hx)
      rw [hx] at x1
      have e := Option.some.inj x1
      subst e
      exact free_derate fp h0 (hle x2 f2)
    | mcast gs =>
      rw [hdst] at hsk
      simp only at hsk
      obtain ⟨ids, hids, hsk⟩ := Out.bind_eq_ok.mp hsk
      obtain ⟨m, hm, hsk⟩ := Out.bind_eq_ok.mp hsk
      rw [← Out.ok.inj hsk, minNiu_zero hnn.2.1 _ _ hm]
      intro d hd
      simp [derate] at hd

end NPE
