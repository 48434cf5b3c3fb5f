import Verif.Proofs.FluidShared
import Verif.Proofs.FluidEmbed

/-
The speeds of the description with rounding are those of the rate computation.
-/

namespace NPE
open NPE.Spec NPE.Spec.Fluid

theorem min_factor' (a b : Option ℚ) : factor (minDerate a b) < 1 ↔ min (factor a) (factor b) < 1 := by
  cases a <;> cases b <;> simp [factor, minDerate]

theorem factor_min (a b : Option ℚ) (h : min (factor a) (factor b) < 1) :
    factor (minDerate a b) = min (factor a) (factor b) := by
  cases a with
  | none =>
    cases b with
    | none => simp [factor] at h
    | some b => simp [factor] at h; simp [factor, minDerate, h.le]
  | some a =>
    cases b with
    | none => simp [factor] at h; simp [factor, minDerate, h.le]
    | some b => rfl

theorem factor_served (fp : FP) (limit load : ℚ) : factor (derate fp limit load) = servedIn fp limit load := by
  unfold derate servedIn
  split <;> rfl

theorem applyDerate_reduced (fp : FP) (dev : Device) (b : ℚ) (d : Option ℚ) :
    applyDerate fp dev b d = if factor d < 1 then reduced fp dev b (factor d) else b := by
  cases d with
  | none => simp [applyDerate, factor]
  | some d => rfl

/-- Contributions in the order of the live transfers. -/
theorem contrib_listed {c : TState → List ℚ} {ts : List TState} {f : Nat → List ℚ} :
    ∀ (live : List Nat), (∀ i ∈ live, ∃ t, ts[i]? = some t ∧ c t = f i) → contrib c ts live = live.flatMap f := by
  intro live
  induction live with
  | nil => intro _; rfl
  | cons i live ih =>
    intro h
    obtain ⟨t, h1, h2⟩ := h i (by simp)
    rw [contrib_cons, ih fun j hj => h j (List.mem_cons_of_mem _ hj), List.flatMap_cons]
    simp only [h1, h2]

theorem gives_rounded {fp : FP} {dev : Device} (hd : DeviceOk dev) (hT : TableOk fp dev.tbt) {job : Nat → Job} {n cpt : Nat}
    (hinj : ∀ i, i < n → 0 ≤ (job i).t.injectionRate) (hrect : ∀ i, i < n → RectsOk (job i).t)
    (order : Nat → List Nat)
    (curr : Nat) (g g' : Grids) (ts ts' : List TState) (live : List Nat) (σ : Fluid.State) (hc32 : curr < 4294967296)
    (hcur : cpt ≤ curr) (hn : live.Nodup) (hlt : ∀ i ∈ live, i < n)
    (hst : ∀ (i : Nat) (t : TState), ts[i]? = some t → t.params = (job i).t ∧ t.route = (job i).route)
    (hact : ∀ (i : Nat) (t : TState), ts[i]? = some t → i ∈ live → t.start ≤ curr ∧ σ i = .active t.start t.moved)
    (hord : order curr = live)
    (h : computeRates fp dev true (curr - cpt) curr g ts live = .ok (ts', g')) :
    ∀ i ∈ live, ∀ t', ts'[i]? = some t' → t'.bw = sharedIn fp dev job cpt order curr σ i := by
  intro i hi t' ht'
  unfold computeRates at h
  obtain ⟨ts1, h1, h⟩ := Out.bind_eq_ok.mp h
  simp only [if_true] at h
  have w1 := updateTransferBandwidth_written hn h1
  obtain ⟨p1, p2, p3⟩ := modelCongestion_parts hn h
  have hl : dev.nLinks ≤ 32768 := hd.ids
  -- the transfers with their own bandwidths
  have hown : ∀ j ∈ live, ∃ t1, ts1[j]? = some t1 ∧ t1.params = (job j).t ∧ t1.route = (job j).route ∧
      t1.bw = own fp dev (job j).t ∧ t1.start ≤ curr ∧ σ j = .active t1.start t1.moved ∧ 0 ≤ t1.bw := by
    intro j hj
    obtain ⟨t, b, a1, a2, a3⟩ := w1.2.2 j hj
    obtain ⟨e1, e2⟩ := hst j t a1
    obtain ⟨e3, e4⟩ := hact j t a1 hj
    refine ⟨_, a3, e1, e2, ?_, e3, e4, ?_⟩
    · rw [← e1]; exact (own_of_table a2).symm
    · exact (tableBw_ok hT a2).1 (by rw [e1]; exact hinj j (hlt j hj))
  have hsane : Sane curr ts1 live := by
    refine ⟨hn, fun j hj t ht => ?_⟩
    obtain ⟨t1, b1, b2, b3, b4, b5, b6, b7⟩ := hown j hj
    rw [ht] at b1
    rw [Option.some.inj b1]
    exact ⟨b5, b7, by rw [b2]; exact hinj j (hlt j hj)⟩
  have hnn : GridNonneg g' := accumulated_nonneg (Nat.sub_le _ _) hsane p2
  -- demands
  have hdem : ∀ j ∈ live, ∀ t1, ts1[j]? = some t1 →
      effectiveDemand fp (curr - cpt) curr t1 = demand fp dev job cpt curr σ j := by
    intro j hj t1 ht1
    obtain ⟨t2, b1, b2, b3, b4, b5, b6, b7⟩ := hown j hj
    rw [ht1] at b1
    have := Option.some.inj b1
    subst this
    unfold effectiveDemand demand
    simp only [b6, b4]
    rw [toU32_sub (by omega) hc32]
    have : ((curr : ℚ) - ((curr - cpt : ℕ) : ℚ)) = cpt := by rw [Nat.cast_sub hcur]; ring
    rw [this]
  -- loads
  have hload : ∀ (w : TState → Nat) (c : TState → List ℚ),
      (∀ t u : TState, t.params = u.params → t.route = u.route → w t = w u) →
      (∀ j ∈ live, ∀ t1, ts1[j]? = some t1 → c t1 = List.replicate (w t1) (effectiveDemand fp (curr - cpt) curr t1)) →
      accum fp (contrib c ts1 live) 0 = loadIn fp dev job cpt (order curr) w curr σ := by
    intro w c hw hc
    unfold accum loadIn
    rw [hord, contrib_listed (f := fun j => List.replicate (w ((job j).began 0)) (demand fp dev job cpt curr σ j))]
    intro j hj
    obtain ⟨t1, b1, b2, b3, b4, b5, b6, b7⟩ := hown j hj
    refine ⟨t1, b1, ?_⟩
    rw [hc j hj t1 b1, hdem j hj t1 b1, hw t1 ((job j).began 0) b2 b3]
  obtain ⟨t1, b1, b2, b3, b4, b5, b6, b7⟩ := hown i hi
  obtain ⟨u, hu, hin⟩ := p1 i hi
  rw [b1] at hu
  have := Option.some.inj hu
  subst this
  have hlink : ∀ l ∈ t1.route, g'.link[l.toNat]? =
      some (loadIn fp dev job cpt (order curr) (fun u => u.route.count l) curr σ) := by
    intro l hlm
    obtain ⟨_, hr, _⟩ := hin
    obtain ⟨l0, l1⟩ := hr l hlm
    have l2 : (initGrids dev).link[l.toNat]? = some 0 := by
      have : l.toNat < (initGrids dev).link.length := by omega
      simp [initGrids, List.getElem?_replicate] at this ⊢
      exact this
    rw [p2.2.2.2.2.1, l2, Option.map_some, hload (fun u => u.route.count l) _ (fun t u _ h => by simp only [h])]
    intro j hj t2 ht2
    unfold linkC
    rw [Int.toNat_of_nonneg l0]
  have hniu : ∀ c ty k, dev.niuAt c ty = .ok k → 0 ≤ k ∧ (initGrids dev).niu[k.toNat]? = some 0 := by
    intro c ty k hk
    unfold Device.niuAt at hk
    obtain ⟨o, e⟩ := getNIUID_ok hl hk
    have := dev.niuIdx_lt _ o
    refine ⟨by omega, ?_⟩
    rw [initGrids_niu, Device.niuTable_length, if_pos (by omega)]
  have hloads : ∀ j ∈ live, ∀ t1, ts1[j]? = some t1 → (∃ L, loads dev t1.params = .ok L) ∧ RectsOk t1.params := by
    intro j hj t1 ht1
    obtain ⟨t, ht, ⟨⟨L, hL, _⟩, _⟩⟩ := p1 j hj
    obtain ⟨t2, b1, b2, _⟩ := hown j hj
    rw [ht1] at ht b1
    have := Option.some.inj ht
    subst this
    have := Option.some.inj b1
    subst this
    exact ⟨⟨L, hL⟩, by rw [b2]; exact hrect j (hlt j hj)⟩
  have hsrcL : ∀ noc c k, dev.niuAt c (srcNiu noc) = .ok k → g'.niu[k.toNat]? =
      some (loadIn fp dev job cpt (order curr) (leaves dev noc c) curr σ) := by
    intro noc c k hk
    obtain ⟨k0, k1⟩ := hniu _ _ _ hk
    rw [p2.2.2.2.1, k1, Option.map_some, hload (leaves dev noc c) _ (fun t u h1 _ => by unfold leaves; rw [h1])]
    intro j hj t2 ht2
    obtain ⟨⟨L, hL⟩, _⟩ := hloads j hj t2 ht2
    unfold niuC
    rw [hL, Int.toNat_of_nonneg k0, ← loads_count_src hl hL hk]
    rfl
  have hsinkL : ∀ noc c k, dev.niuAt c (sinkNiu noc) = .ok k → g'.niu[k.toNat]? =
      some (loadIn fp dev job cpt (order curr) (reaches dev noc c) curr σ) := by
    intro noc c k hk
    obtain ⟨k0, k1⟩ := hniu _ _ _ hk
    rw [p2.2.2.2.1, k1, Option.map_some, hload (reaches dev noc c) _ (fun t u h1 _ => by unfold reaches; rw [h1])]
    intro j hj t2 ht2
    obtain ⟨⟨L, hL⟩, hr⟩ := hloads j hj t2 ht2
    unfold niuC
    rw [hL, Int.toNat_of_nonneg k0, ← loads_count_sink hl hr hL hk]
    rfl
  obtain ⟨t2, b, d1, d2, d3⟩ := p3.2.2 i hi
  rw [b1] at d1
  have := Option.some.inj d1
  subst this
  rw [ht'] at d3
  rw [Option.some.inj d3]
  show b = _
  unfold deratedBw at d2
  obtain ⟨d, hdr, d2⟩ := Out.bind_eq_ok.mp d2
  rw [← Out.ok.inj d2, applyDerate_reduced, b4]
  unfold overallDerate at hdr
  obtain ⟨m, hm, hdr⟩ := Out.bind_eq_ok.mp hdr
  obtain ⟨src, hsrc, hdr⟩ := Out.bind_eq_ok.mp hdr
  obtain ⟨sd, hsd, hdr⟩ := Out.bind_eq_ok.mp hdr
  obtain ⟨sk, hsk, hdr⟩ := Out.bind_eq_ok.mp hdr
  have e1 : m = ((job i).route.map fun l =>
      loadIn fp dev job cpt (order curr) (fun u => u.route.count l) curr σ).foldl max 0 := by
    rw [← b3]
    exact maxLinkDemand_eq _ _ _ hlink hm
  have e2 : sd = loadIn fp dev job cpt (order curr) (leaves dev (job i).t.noc (job i).t.src) curr σ := by
    have := hsrcL _ _ _ hsrc
    rw [(readAt_ok.mp hsd).2] at this
    rw [Option.some.inj this, b2]
  have e3 : factor sk = match (job i).t.dst with
    | .unicast d =>
      match dev.getSinkAbsorptionRate d with
      | .ok a => servedIn fp a (loadIn fp dev job cpt (order curr) (reaches dev (job i).t.noc d) curr σ)
      | _ => 1
    | .mcast _ => 1 := by
    unfold sinkDerate at hsk
    rw [b2] at hsk
    cases hdst : (job i).t.dst with
    | unicast c =>
      rw [hdst] at hsk
      simp only at hsk ⊢
      obtain ⟨k, hk, hsk⟩ := Out.bind_eq_ok.mp hsk
      obtain ⟨x, hx, hsk⟩ := Out.bind_eq_ok.mp hsk
      obtain ⟨a, ha, hsk⟩ := Out.bind_eq_ok.mp hsk
      rw [← Out.ok.inj hsk, ha, factor_served]
      have := hsinkL _ _ _ hk
      rw [(readAt_ok.mp hx).2] at this
      rw [Option.some.inj this]
    | mcast gs =>
      rw [hdst] at hsk
      simp only at hsk ⊢
      obtain ⟨ids, hids, hsk⟩ := Out.bind_eq_ok.mp hsk
      obtain ⟨m, hm, hsk⟩ := Out.bind_eq_ok.mp hsk
      rw [← Out.ok.inj hsk, minNiu_zero hnn.2.1 _ _ hm]
      rfl
  have e4 : sharedIn fp dev job cpt order curr σ i =
      if min (servedIn fp dev.linkBw m) (min (servedIn fp (job i).t.injectionRate sd) (factor sk)) < 1 then
        reduced fp dev (own fp dev (job i).t)
          (min (servedIn fp dev.linkBw m) (min (servedIn fp (job i).t.injectionRate sd) (factor sk)))
      else own fp dev (job i).t := by
    rw [e1, e2, e3]
    rfl
  rw [e4, ← factor_served, ← factor_served, ← b2]
  have hdr := Out.ok.inj hdr
  have k1 : factor d < 1 ↔ min (factor (derate fp dev.linkBw m)) (min (factor (derate fp t1.params.injectionRate sd)) (factor sk)) < 1 := by
    rw [← hdr, min_factor', min_lt_iff, min_factor', ← min_lt_iff]
  have k2 : min (factor (derate fp dev.linkBw m)) (min (factor (derate fp t1.params.injectionRate sd)) (factor sk)) < 1 →
      factor d = min (factor (derate fp dev.linkBw m)) (min (factor (derate fp t1.params.injectionRate sd)) (factor sk)) := by
    generalize derate fp t1.params.injectionRate sd = x at *
    generalize derate fp dev.linkBw m = y at *
    rw [← hdr]
    intro hlt
    cases x with
    | none =>
      cases sk with
      | none =>
        cases y with
        | none => simp [factor] at hlt
        | some y => simp [factor] at hlt; simp [factor, minDerate, hlt.le]
      | some k =>
        cases y with
        | none => simp [factor] at hlt; simp [factor, minDerate, hlt.le]
        | some y =>
          simp only [factor, minDerate] at hlt ⊢
          rcases lt_or_ge k 1 with hk | hk
          · rw [min_eq_right hk.le]
          · rw [min_eq_left hk]
            rw [min_eq_left hk, min_lt_iff] at hlt
            have hy : y < 1 := by rcases hlt with h | h; exact h; exact absurd h (lt_irrefl _)
            rw [min_eq_left hy.le, min_eq_left (le_trans hy.le hk)]
    | some x =>
      cases sk with
      | none =>
        cases y with
        | none =>
          simp only [factor, minDerate] at hlt ⊢
          rcases lt_or_ge x 1 with hk | hk
          · rw [min_eq_left hk.le, min_eq_right hk.le]
          · rw [min_eq_right hk, min_self] at hlt
            exact absurd hlt (lt_irrefl _)
        | some y =>
          simp only [factor, minDerate] at hlt ⊢
          rcases lt_or_ge x 1 with hk | hk
          · rw [min_eq_left hk.le]
          · rw [min_eq_right hk]
            rw [min_eq_right hk, min_lt_iff] at hlt
            have hy : y < 1 := by rcases hlt with h | h; exact h; exact absurd h (lt_irrefl _)
            rw [min_eq_left hy.le, min_eq_left (le_trans hy.le hk)]
      | some k =>
        cases y with
        | none =>
          simp only [factor, minDerate] at hlt ⊢
          rcases lt_or_ge (min x k) 1 with hk | hk
          · rw [min_eq_right hk.le]
          · rw [min_eq_left hk] at hlt
            exact absurd hlt (lt_irrefl _)
        | some y => rfl
  by_cases hlt : min (factor (derate fp dev.linkBw m)) (min (factor (derate fp t1.params.injectionRate sd)) (factor sk)) < 1
  · rw [if_pos hlt, if_pos (k1.mpr hlt), k2 hlt]
  · rw [if_neg hlt, if_neg (fun x => hlt (k1.mp x))]

/-! ### The order of a run -/

/-- The activation scan, given which transfers may start. -/
def pick (ready : Nat → Bool) (curr : Nat) : Nat → List (Nat × Nat) × List Nat × Nat → List (Nat × Nat) × List Nat × Nat
  | 0, s => s
  | i + 1, s =>
    match s.1[i]? with
    | none => s
    | some x =>
      if x.1 ≤ curr then
        if ready x.2 then
          match swap s.1 (s.1.length - 1 - s.2.2) i with
          | .ok q => pick ready curr i (q, s.2.1 ++ [x.2], s.2.2 + 1)
          | _ => s
        else pick ready curr i s
      else s

theorem scanGo_pick {deps : Tracker} {curr : Nat} {ready : Nat → Bool} :
    ∀ (n : Nat) (s r : Scan), scanGo deps curr n s = .ok r → (∀ x, isReady s.ts deps curr x = ready x.2) →
      (r.queue, r.live, r.activated) = pick ready curr n (s.queue, s.live, s.activated) := by
  intro n
  induction n with
  | zero => intro s r h _; rw [← Out.ok.inj h]; rfl
  | succ i ih =>
    intro s r h hr
    unfold scanGo at h
    unfold pick
    simp only
    cases hq : s.queue[i]? with
    | none => rw [hq] at h; cases h
    | some q =>
      rw [hq] at h
      simp only at h ⊢
      by_cases hle : q.1 ≤ curr
      · rw [if_pos hle] at h ⊢
        cases ht : s.ts[q.2]? with
        | none => rw [ht] at h; cases h
        | some t =>
          rw [ht] at h
          simp only at h
          obtain ⟨d, hd, h⟩ := Out.bind_eq_ok.mp h
          have e := hr q
          unfold isReady at e
          rw [ht] at e
          simp only [hd] at e
          rw [← e]
          cases d with
          | false =>
            simp only [Bool.false_eq_true, if_false] at h ⊢
            exact ih s r h hr
          | true =>
            simp only [if_true] at h ⊢
            obtain ⟨st, _, h⟩ := Out.bind_eq_ok.mp h
            obtain ⟨qq, hsw, h⟩ := Out.bind_eq_ok.mp h
            rw [hsw]
            simp only
            refine ih _ r h fun x => ?_
            rw [← hr x]
            refine isReady_congr ?_
            rw [List.getElem?_set]
            by_cases hx : q.2 = x.2
            · rw [if_pos hx]
              have hlt := (List.getElem?_eq_some_iff.mp ht).1
              rw [if_pos hlt, ← hx, ht]
              rfl
            · rw [if_neg hx]
      · rw [if_neg hle] at h ⊢
        rw [← Out.ok.inj h]

/-- Whether the transfer that `i` waits for has ended. -/
def readyIn (job : Nat → Job) (n curr : Nat) (σ : Fluid.State) (i : Nat) : Bool :=
  decide (i < n) && match (job i).after with
    | none => true
    | some (j, d) =>
      match σ j with
      | .finished _ e => decide ((e + d) % 4294967296 ≤ curr)
      | _ => false

theorem isReady_readyIn {prev : Nat} {s : Sim} (hi : Inv prev s) {σ : Fluid.State} (hsh : Shows s σ) {job : Nat → Job}
    (hd : Describes job s) (curr : Nat) (x : Nat × Nat) :
    isReady s.ts s.deps curr x = readyIn job s.ts.length curr σ x.2 := by
  unfold isReady readyIn
  cases ht : s.ts[x.2]? with
  | none =>
    have : ¬ x.2 < s.ts.length := by have := List.getElem?_eq_none_iff.mp ht; omega
    simp only [this, decide_false, Bool.false_and]
  | some t =>
    have hlt := (List.getElem?_eq_some_iff.mp ht).1
    simp only [hlt, decide_true, Bool.true_and]
    obtain ⟨_, _, ha⟩ := hd _ t ht
    rcases hi.dep_view hsh ht ha with ⟨a1, a2⟩ | ⟨j, d, cp, a1, a2, a3, a4, a5, a6⟩
    · rw [a1, Tracker.done_eq_ok.mpr (Or.inl ⟨a2, rfl⟩)]
    · rw [a1]
      simp only
      rw [Tracker.done_eq_ok.mpr (Or.inr ⟨a2, cp, a3, rfl⟩)]
      simp only
      rcases a6 with ⟨c, e, b1, b2, b3⟩ | ⟨b1, b2⟩
      · simp only [b1]
        simp only [Checkpoint.done, b2, a5, b3, a4, decide_true, Bool.true_and]
      · have hf : cp.done curr = false := by simp [Checkpoint.done, b2, a5]
        rw [hf]
        cases hj : σ j with
        | waiting => rfl
        | active c m => rfl
        | finished c e => exact absurd hj (b1 c e)

/-- Whether a transfer is active. -/
def Spec.Fluid.Prog.isActive : Prog → Bool
  | .active _ _ => true
  | _ => false

/-- The progress of all transfers with the queue and the list of active transfers, after `k` timesteps. -/
structure Plan where
  σ : Fluid.State
  queue : List (Nat × Nat)
  live : List Nat

/-- Queue, active transfers and number of those that begin, in the timestep that ends at `curr`. -/
def Plan.picked (job : Nat → Job) (n curr : Nat) (p : Plan) : List (Nat × Nat) × List Nat × Nat :=
  pick (readyIn job n curr p.σ) curr p.queue.length (p.queue, p.live, 0)

def plan (fp : FP) (dev : Device) (job : Nat → Job) (n cpt : Nat) (q0 : List (Nat × Nat)) : Nat → Plan
  | 0 => ⟨fun _ => .waiting, q0, []⟩
  | k + 1 =>
    let p := plan fp dev job n cpt q0 k
    let r := p.picked job n ((k + 1) * cpt)
    let σ := advance fp.f32.fl job cpt (sharedIn fp dev job cpt fun _ => r.2.1) ((k + 1) * cpt)
      (Fluid.start job ((k + 1) * cpt) p.σ)
    ⟨σ, r.1.take (r.1.length - r.2.2), r.2.1.filter fun i => (σ i).isActive⟩

/-- The order of the active transfers in the timestep that ends at `c`. -/
def planOrder (fp : FP) (dev : Device) (job : Nat → Job) (n cpt : Nat) (q0 : List (Nat × Nat)) (c : Nat) : List Nat :=
  ((plan fp dev job n cpt q0 (c / cpt - 1)).picked job n c).2.1

theorem run_plan (fp : FP) (dev : Device) (job : Nat → Job) (n : Nat) {cpt : Nat} (hpos : 0 < cpt) (q0 : List (Nat × Nat)) :
    ∀ k, run fp.f32.fl job cpt (sharedIn fp dev job cpt (planOrder fp dev job n cpt q0)) k =
      (plan fp dev job n cpt q0 k).σ := by
  intro k
  induction k with
  | zero => rfl
  | succ k ih =>
    show advance _ job cpt _ ((k + 1) * cpt) (Fluid.start job ((k + 1) * cpt) _) = _
    rw [ih]
    have e : planOrder fp dev job n cpt q0 ((k + 1) * cpt) =
        ((plan fp dev job n cpt q0 k).picked job n ((k + 1) * cpt)).2.1 := by
      unfold planOrder
      rw [Nat.mul_div_cancel _ hpos, Nat.add_sub_cancel]
    have e2 : ∀ (o o' : Nat → List Nat) (τ : Fluid.State), o ((k + 1) * cpt) = o' ((k + 1) * cpt) →
        advance fp.f32.fl job cpt (sharedIn fp dev job cpt o) ((k + 1) * cpt) τ =
        advance fp.f32.fl job cpt (sharedIn fp dev job cpt o') ((k + 1) * cpt) τ := by
      intro o o' τ h
      funext i
      have : ∀ i, sharedIn fp dev job cpt o ((k + 1) * cpt) τ i = sharedIn fp dev job cpt o' ((k + 1) * cpt) τ i := by
        intro i; unfold sharedIn; rw [h]
      unfold advance
      simp only [this]
    exact e2 _ _ _ e

theorem follows_plan {fp : FP} {dev : Device} {ho : HashOrder} {cpt : Nat} {golden : GoldenMap} {wl : Workload} {s0 : Sim}
    (hdev : DeviceOk dev) (hT : TableOk fp dev.tbt) (hw : ∀ t ∈ wl.transfers, 0 ≤ t.injectionRate ∧ RectsOk t)
    (h0 : initSim fp dev ho wl = .ok s0) (hpos : 0 < cpt) (hcpt : cpt < 4244967296) {job : Nat → Job}
    (hd : Describes job s0) {c : Nat} {s : Sim} (h : Reach (simConfig fp dev cpt golden true) s0 c s) :
    ∃ k, c = k * cpt ∧
      Shows s (plan fp dev job s0.ts.length cpt s0.queue k).σ ∧
      s.queue = (plan fp dev job s0.ts.length cpt s0.queue k).queue ∧
      s.live = (plan fp dev job s0.ts.length cpt s0.queue k).live ∧
      Orders fp.f32.fl job s0.ts.length cpt
        (sharedIn fp dev job cpt (planOrder fp dev job s0.ts.length cpt s0.queue))
        (planOrder fp dev job s0.ts.length cpt s0.queue) k := by
  have hj : ∀ i, i < s0.ts.length → (job i).t ∈ wl.transfers := by
    intro i hi
    have hg : s0.ts[i]? = some s0.ts[i] := List.getElem?_eq_getElem hi
    rw [(hd i _ hg).1]
    exact ((initSim_ok h0).1.slots i _ hg).1
  have hr : RatesOk (simConfig fp dev cpt golden true).rates := computeRates_ok fp dev true
  have hi0 := init_inv h0
  induction h with
  | start =>
    refine ⟨0, by omega, fun i t ht => init_waiting h0 i (List.getElem?_eq_some_iff.mp ht).1, rfl, (initSim_ok h0).1.live, ?_⟩
    intro k' hk'
    omega
  | @step c s s' hs hcc hst ih =>
    obtain ⟨k, e, hsh, hq, hl, hord⟩ := ih
    have hi := hs.inv hr hi0
    obtain ⟨F⟩ := step_facts hr (Nat.le_add_right _ _) hi hst
    have hlen : s.ts.length = s0.ts.length := by
      have := congrArg List.length (hs.stat hr hi0)
      simpa using this
    have hds := hd.reach hr hi0 hs
    have h1 : c + (simConfig fp dev cpt golden true).cpt = (k + 1) * cpt := by rw [e]; simp [simConfig]; ring
    have h32 : (k + 1) * cpt < 4294967296 := by
      have : (simConfig fp dev cpt golden true).cpt = cpt := rfl
      omega
    rw [h1] at F hst
    obtain ⟨v1, v2, v3, v4, v5, v6⟩ := F.view hi hsh hds
    rw [hlen] at v1 v3 v6
    -- the scan
    have hpick : (F.P.s1.live = ((plan fp dev job s0.ts.length cpt s0.queue k).picked job s0.ts.length ((k + 1) * cpt)).2.1) ∧
        F.P.s1.queue = (plan fp dev job s0.ts.length cpt s0.queue (k + 1)).queue := by
      have ha := F.P.act
      unfold activate at ha
      obtain ⟨r, hr1, hr2⟩ := Out.bind_eq_ok.mp ha
      have := scanGo_pick (ready := readyIn job s0.ts.length ((k + 1) * cpt) (plan fp dev job s0.ts.length cpt s0.queue k).σ)
        _ _ _ hr1 (fun x => by
          have := isReady_readyIn hi hsh hds ((k + 1) * cpt) x
          rw [hlen] at this
          exact this)
      simp only at this
      rw [hq, hl] at this
      rw [← Out.ok.inj hr2]
      have e3 : (plan fp dev job s0.ts.length cpt s0.queue k).picked job s0.ts.length ((k + 1) * cpt) =
        (r.queue, r.live, r.activated) := this.symm
      have e4 : (plan fp dev job s0.ts.length cpt s0.queue (k + 1)).queue =
        (((plan fp dev job s0.ts.length cpt s0.queue k).picked job s0.ts.length ((k + 1) * cpt)).1.take
          (((plan fp dev job s0.ts.length cpt s0.queue k).picked job s0.ts.length ((k + 1) * cpt)).1.length -
            ((plan fp dev job s0.ts.length cpt s0.queue k).picked job s0.ts.length ((k + 1) * cpt)).2.2)) := rfl
      rw [e4, e3]
      exact ⟨rfl, rfl⟩
    have hporder : planOrder fp dev job s0.ts.length cpt s0.queue ((k + 1) * cpt) = F.P.s1.live := by
      rw [hpick.1]
      unfold planOrder
      rw [Nat.mul_div_cancel _ hpos, Nat.add_sub_cancel]
    have hsh' : Shows s' (plan fp dev job s0.ts.length cpt s0.queue (k + 1)).σ := by
      rw [← run_plan fp dev job s0.ts.length hpos s0.queue (k + 1)]
      show Shows s' (advance _ job cpt _ ((k + 1) * cpt) (Fluid.start job ((k + 1) * cpt) _))
      rw [run_plan fp dev job s0.ts.length hpos s0.queue k]
      refine F.shows_of hi hsh hds ?_ h32
      have hrt := F.P.rates
      exact gives_rounded hdev hT (n := s0.ts.length) (fun i hi => (hw _ (hj i hi)).1) (fun i hi => (hw _ (hj i hi)).2)
        (planOrder fp dev job s0.ts.length cpt s0.queue) ((k + 1) * cpt) F.P.s1.grids F.P.g2 F.P.s1.ts F.P.ts2 F.P.s1.live
        (Fluid.start job ((k + 1) * cpt) _) h32 (by rw [Nat.succ_mul]; omega) v2 v3 v4 v5 hporder F.P.rates
    refine ⟨k + 1, h1, hsh', ?_, ?_, ?_⟩
    · rw [← hpick.2, congrArg Sim.queue F.P.res]
    · show s'.live = _
      have e1 : s'.live = F.P.s1.live.filter fun id => !isComplete F.P.u.ts id := congrArg Sim.live F.P.res
      have e2 : (plan fp dev job s0.ts.length cpt s0.queue (k + 1)).live = F.P.s1.live.filter fun i =>
          ((plan fp dev job s0.ts.length cpt s0.queue (k + 1)).σ i).isActive := by
        rw [hpick.1]; rfl
      rw [e2, e1]
      refine List.filter_congr fun i hi => ?_
      have hlt : i < s'.ts.length := by
        have := congrArg List.length ((Reach.step hs hcc (by rw [h1]; exact hst)).stat hr hi0)
        simp only [List.length_map] at this
        rw [this]; exact v3 i hi
      have hg := hsh' i _ (List.getElem?_eq_getElem hlt)
      have hmem : i ∈ s'.live ↔ (!isComplete F.P.u.ts i) = true := by rw [e1, List.mem_filter]; simp [hi]
      cases hσ : (plan fp dev job s0.ts.length cpt s0.queue (k + 1)).σ i with
      | waiting =>
        rw [hσ] at hg
        obtain ⟨o, ho⟩ := hg
        rw [congrArg Sim.queue F.P.res] at ho
        exact absurd rfl ((List.nodup_append.mp F.inv1.nodup).2.2 i (waiting_iff.mp ⟨o, ho⟩) i hi)
      | active c m =>
        rw [hσ] at hg
        exact (hmem.mp hg.1)
      | finished c e =>
        rw [hσ] at hg
        obtain ⟨⟨_, _, _, _, hn⟩, _⟩ := hg
        unfold Active at hn
        rw [hmem] at hn
        show _ = false
        simpa using hn
    · intro k' hk'
      by_cases hlt : k' < k
      · exact hord k' hlt
      · have : k' = k := by omega
        subst this
        rw [hporder, run_plan fp dev job s0.ts.length hpos s0.queue k']
        refine ⟨v2, fun i => ⟨fun hl => ⟨v3 i hl, ?_⟩, fun ⟨hl, c', m', hs'⟩ => ?_⟩⟩
        · have hg : F.P.s1.ts[i]? = some (F.P.s1.ts[i]'(by rw [v1]; exact v3 i hl)) := List.getElem?_eq_getElem _
          exact ⟨_, _, (v5 i _ hg hl).2⟩
        · by_contra hn
          exact v6 i hl hn c' m' hs'

end NPE
