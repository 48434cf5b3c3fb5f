import Verif.Proofs.Fluid
import Verif.Proofs.Independent
import Verif.Proofs.Offered
import Verif.Props.Congestion

/-
The speeds of the order-free description are those of the rate computation.
-/

namespace NPE
open NPE.Spec NPE.Spec.Fluid

theorem own_of_table {fp : FP} {dev : Device} {t : TState} {b : ℚ} (h : tableBw fp dev t = .ok b) :
    own fp dev t.params = b := by
  unfold tableBw at h
  obtain ⟨x, h1, h2⟩ := Out.bind_eq_ok.mp h
  unfold own
  rw [h1]
  exact Out.ok.inj h2

theorem gives_alone (fp : FP) (dev : Device) (job : Nat → Job) (n cpt : Nat) :
    Gives (computeRates fp dev false) job n cpt (alone fp dev job) := by
  intro curr g g' ts ts' live σ _ _ _ hn _ hst _ _ h i hi t' ht'
  obtain ⟨_, _, _, h4⟩ := computeRates_bw hn h
  obtain ⟨t, b, d, a1, a2, a3, a4⟩ := h4 i hi
  rw [ht'] at a3
  rw [Option.some.inj a3, a4 rfl]
  show b = own fp dev (job i).t
  rw [← (hst i t a1).1, own_of_table a2]

/-- A sum over the active transfers as a sum over all. -/
theorem sum_live {live : List Nat} (hn : live.Nodup) {n : Nat} (hlt : ∀ i ∈ live, i < n) {f g : Nat → ℚ}
    (hf : ∀ i ∈ live, f i = g i) (hg : ∀ i, i < n → i ∉ live → g i = 0) :
    (live.map f).sum = ((List.range n).map g).sum := by
  rw [← List.sum_toFinset _ hn, ← List.sum_toFinset _ List.nodup_range]
  rw [Finset.sum_congr rfl fun i hi => hf i (List.mem_toFinset.mp hi)]
  refine Finset.sum_subset ?_ ?_
  · intro i hi
    rw [List.mem_toFinset] at hi ⊢
    exact List.mem_range.mpr (hlt i hi)
  · intro i hi hni
    rw [List.mem_toFinset] at hi hni
    exact hg i (List.mem_range.mp hi) hni

theorem maxLinkDemand_eq {g : Grids} {f : Int → ℚ} : ∀ (route : List Int) (m0 m : ℚ),
    (∀ l ∈ route, g.link[l.toNat]? = some (f l)) →
    Out.foldlM (fun m l => readAt g.link l >>= fun x => .ok (max m x)) m0 route = .ok m →
    m = (route.map f).foldl max m0 := by
  intro route
  induction route with
  | nil => intro m0 m _ h; rw [← Out.ok.inj h]; rfl
  | cons l route ih =>
    intro m0 m hall h
    rw [Out.foldlM_cons] at h
    obtain ⟨m1, h1, h⟩ := Out.bind_eq_ok.mp h
    obtain ⟨x, hx, h1⟩ := Out.bind_eq_ok.mp h1
    rw [ih m1 m (fun k hk => hall k (List.mem_cons_of_mem _ hk)) h, ← Out.ok.inj h1]
    have := (readAt_ok.mp hx).2
    rw [hall l (by simp)] at this
    rw [← Option.some.inj this]
    rfl

theorem minNiu_zero {g : Grids} (hg : ∀ x ∈ g.niu, 0 ≤ x) : ∀ (ids : List Int) (m : ℚ),
    Out.foldlM (fun m i => readAt g.niu i >>= fun x => .ok (min m x)) 0 ids = .ok m → m = 0 := by
  intro ids
  induction ids with
  | nil => intro m h; exact (Out.ok.inj h).symm
  | cons i ids ih =>
    intro m h
    rw [Out.foldlM_cons] at h
    obtain ⟨m1, h1, h⟩ := Out.bind_eq_ok.mp h
    obtain ⟨x, hx, h1⟩ := Out.bind_eq_ok.mp h1
    have h2 := hg x (List.mem_of_getElem? (readAt_ok.mp hx).2)
    rw [min_eq_left h2] at h1
    rw [← Out.ok.inj h1] at h
    exact ih m h

/-- The factor of a resource, `none` meaning no limit. -/
def factor : Option ℚ → ℚ
  | none => 1
  | some d => d

theorem factor_derate (limit load : ℚ) : factor (derate .exact limit load) = served limit load := by
  unfold derate served
  split <;> rfl

theorem min_factor (a b : Option ℚ) : min 1 (factor (minDerate a b)) = min 1 (min (factor a) (factor b)) := by
  cases a <;> cases b <;> simp [factor, minDerate, min_comm]

theorem applyDerate_factor (dev : Device) (b : ℚ) (d : Option ℚ) :
    applyDerate .exact dev b d = b * min 1 (factor d) := by
  cases d with
  | none => simp [applyDerate, factor]
  | some d =>
    unfold applyDerate factor
    simp only
    by_cases h : d < 1
    · rw [if_pos h, min_eq_right h.le]
      split
      · rfl
      · show b * (1 - (1 - d)) = b * d
        ring
    · rw [if_neg h, min_eq_left (not_lt.mp h), mul_one]

theorem gives_shared {dev : Device} (hd : DeviceOk dev) (hT : TableOk .exact dev.tbt) {job : Nat → Job} {n cpt : Nat}
    (hinj : ∀ i, i < n → 0 ≤ (job i).t.injectionRate) (hrect : ∀ i, i < n → RectsOk (job i).t) :
    Gives (computeRates .exact dev true) job n cpt (shared dev job n cpt) := by
  intro curr g g' ts ts' live σ hc32 hcur hlen hn hlt hst hact hina h i hi t' ht'
  unfold computeRates at h
  obtain ⟨ts1, h1, h⟩ := Out.bind_eq_ok.mp h
  simp only [if_true] at h
  have w1 := updateTransferBandwidth_written hn h1
  obtain ⟨p1, p2, p3⟩ := modelCongestion_parts hn h
  have hl : dev.nLinks ≤ 32768 := hd.ids
  -- the transfers with their own bandwidths
  have hown : ∀ j ∈ live, ∃ t1, ts1[j]? = some t1 ∧ t1.params = (job j).t ∧ t1.route = (job j).route ∧
      t1.bw = own .exact dev (job j).t ∧ t1.start ≤ curr ∧ σ j = .active t1.start t1.moved ∧ 0 ≤ t1.bw := by
    intro j hj
    obtain ⟨t, b, a1, a2, a3⟩ := w1.2.2 j hj
    obtain ⟨e1, e2⟩ := hst j t a1
    obtain ⟨e3, e4⟩ := hact j t a1 hj
    refine ⟨_, a3, e1, e2, ?_, e3, e4, ?_⟩
    · rw [← e1]; exact (own_of_table a2).symm
    · exact (tableBw_ok hT a2).1 (by rw [e1]; exact hinj j (hlt j hj))
  have hsane : Sane curr ts1 live := by
    refine ⟨hn, fun j hj t ht => ?_⟩
    obtain ⟨t1, b1, b2, b3, b4, b5, b6, b7⟩ := hown j hj
    rw [ht] at b1
    rw [Option.some.inj b1]
    exact ⟨b5, b7, by rw [b2]; exact hinj j (hlt j hj)⟩
  have hnn : GridNonneg g' := accumulated_nonneg (Nat.sub_le _ _) hsane p2
  -- offered load
  have hload : ∀ w : TState → Nat, (∀ t u : TState, t.params = u.params → t.route = u.route → w t = w u) →
      offered w (curr - cpt) curr ts1 live = load dev job n cpt w curr σ := by
    intro w hw
    unfold offered load
    refine sum_live hn hlt ?_ ?_
    · intro j hj
      obtain ⟨t1, b1, b2, b3, b4, b5, b6, b7⟩ := hown j hj
      simp only [b1, b6]
      rw [hw t1 ((job j).began t1.start) b2 b3, b4]
      rfl
    · intro j hjn hjl
      cases hs : σ j with
      | waiting => rfl
      | active c m => exact absurd hs (hina j hjn hjl c m)
      | finished c e => rfl
  have hlive1 : ∀ j ∈ live, ∀ t, ts1[j]? = some t → t.start ≤ curr ∧ RectsOk t.params := by
    intro j hj t ht
    obtain ⟨t1, b1, b2, b3, b4, b5, b6, b7⟩ := hown j hj
    rw [ht] at b1
    rw [Option.some.inj b1]
    exact ⟨b5, by rw [b2]; exact hrect j (hlt j hj)⟩
  obtain ⟨_, _, hsrcL, hsinkL⟩ := Props.C66_demands dev hd (curr - cpt) curr (Nat.sub_le _ _) hc32 ts1 ts' live g' hn
    hlive1 h
  obtain ⟨t1, b1, b2, b3, b4, b5, b6, b7⟩ := hown i hi
  obtain ⟨u, hu, hin⟩ := p1 i hi
  rw [b1] at hu
  have := Option.some.inj hu
  subst this
  have hlink : ∀ l ∈ t1.route, g'.link[l.toNat]? =
      some (load dev job n cpt (fun u => u.route.count l) curr σ) := by
    intro l hlm
    obtain ⟨_, hr, _⟩ := hin
    obtain ⟨l0, l1⟩ := hr l hlm
    have l2 : (initGrids dev).link[l.toNat]? = some 0 := by
      have : l.toNat < (initGrids dev).link.length := by omega
      simp [initGrids, List.getElem?_replicate] at this ⊢
      exact this
    rw [p2.2.2.2.2.1, l2, Option.map_some, accum_exact, zero_add,
      contrib_offered (w := fun u => u.route.count l), hload _ (fun t u _ h => by simp only [h])]
    intro j hj
    obtain ⟨u1, c1, c2, c3, c4, c5, c6, c7⟩ := hown j hj
    refine ⟨u1, c1, ?_⟩
    unfold linkC
    rw [effectiveDemand_exact (Nat.sub_le _ _) c5 hc32, Int.toNat_of_nonneg l0]
  obtain ⟨t2, b, d1, d2, d3⟩ := p3.2.2 i hi
  rw [b1] at d1
  have := Option.some.inj d1
  subst this
  rw [ht'] at d3
  rw [Option.some.inj d3]
  show b = _
  unfold deratedBw at d2
  obtain ⟨d, hdr, d2⟩ := Out.bind_eq_ok.mp d2
  rw [← Out.ok.inj d2, applyDerate_factor, b4]
  unfold shared
  simp only
  congr 1
  unfold overallDerate at hdr
  obtain ⟨m, hm, hdr⟩ := Out.bind_eq_ok.mp hdr
  obtain ⟨src, hsrc, hdr⟩ := Out.bind_eq_ok.mp hdr
  obtain ⟨sd, hsd, hdr⟩ := Out.bind_eq_ok.mp hdr
  obtain ⟨sk, hsk, hdr⟩ := Out.bind_eq_ok.mp hdr
  rw [← Out.ok.inj hdr, min_factor, factor_derate]
  have e1 : m = ((job i).route.map fun l => load dev job n cpt (fun u => u.route.count l) curr σ).foldl max 0 := by
    rw [← b3]
    exact maxLinkDemand_eq _ _ _ hlink hm
  have e2 : sd = load dev job n cpt (leaves dev (job i).t.noc (job i).t.src) curr σ := by
    have := hsrcL _ _ _ hsrc
    rw [(readAt_ok.mp hsd).2] at this
    rw [Option.some.inj this, b2]
    refine hload _ fun t u h1 _ => ?_
    unfold leaves; rw [h1]
  have e3 : min 1 (factor sk) = min 1 (match (job i).t.dst with
    | .unicast d =>
      match dev.getSinkAbsorptionRate d with
      | .ok a => served a (load dev job n cpt (reaches dev (job i).t.noc d) curr σ)
      | _ => 1
    | .mcast _ => 1) := by
    unfold sinkDerate at hsk
    rw [b2] at hsk
    cases hdst : (job i).t.dst with
    | unicast c =>
      rw [hdst] at hsk
      simp only at hsk ⊢
      obtain ⟨k, hk, hsk⟩ := Out.bind_eq_ok.mp hsk
      obtain ⟨x, hx, hsk⟩ := Out.bind_eq_ok.mp hsk
      obtain ⟨a, ha, hsk⟩ := Out.bind_eq_ok.mp hsk
      rw [← Out.ok.inj hsk, ha, factor_derate]
      have := hsinkL _ _ _ hk
      rw [(readAt_ok.mp hx).2] at this
      rw [Option.some.inj this, hload _ fun t u h1 _ => by unfold reaches; rw [h1]]
    | mcast gs =>
      rw [hdst] at hsk
      simp only at hsk ⊢
      obtain ⟨ids, hids, hsk⟩ := Out.bind_eq_ok.mp hsk
      obtain ⟨m, hm, hsk⟩ := Out.bind_eq_ok.mp hsk
      rw [← Out.ok.inj hsk, minNiu_zero hnn.2.1 _ _ hm]
      rfl
  have e4 : min 1 (min (served dev.linkBw m) (factor (minDerate (derate .exact t1.params.injectionRate sd) sk))) =
      min (served dev.linkBw m) (min 1 (min (served t1.params.injectionRate sd) (factor sk))) := by
    rw [min_left_comm, min_factor, factor_derate]
  rw [e4, min_left_comm 1 (served t1.params.injectionRate sd), e3, e1, e2, b2]
  have e5 : ∀ a b y : ℚ, min a (min b (min 1 y)) = min 1 (min a (min b y)) := by
    intro a b y
    rw [min_left_comm b 1, min_left_comm a 1]
  exact e5 _ _ _

end NPE
