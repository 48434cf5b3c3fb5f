import Verif.Proofs.Load

/-
Bandwidths of the table, order independence and independence of transfers on disjoint resources.
-/

namespace NPE
open Spec

/-! ### Bandwidth from the table -/

theorem interpGo_zero {fp : FP} {maxBw : ℚ} {ps : Nat} : ∀ (l : List (Nat × ℚ)) (b : ℚ),
    interpGo fp maxBw ps 0 l = .ok b → ∃ e ∈ l, b = e.2 := by
  intro l
  induction l with
  | nil => intro b h; simp [interpGo] at h
  | cons a l ih =>
    intro b h
    cases l with
    | nil =>
      unfold interpGo at h
      split at h
      · exact ⟨a, by simp, (Out.ok.inj h).symm⟩
      · simp at h
    | cons c l =>
      unfold interpGo at h
      split at h
      · unfold blendBw at h; simp at h
      · obtain ⟨e, he, hb⟩ := ih b h
        exact ⟨e, List.mem_cons_of_mem _ he, hb⟩

theorem getLast?_peak {fp : FP} {tbt : List (Nat × ℚ)} (h : TableOk fp tbt) : ∃ size bw, Peak tbt size bw := by
  obtain ⟨b, l, e⟩ := h.first
  unfold Peak
  rw [e, List.getLast?_eq_getLast_of_ne_nil (by simp)]
  exact ⟨_, _, rfl⟩

/-- Every bandwidth that the table yields is a `float` that is not negative. -/
theorem interpolateBW_ok {fp : FP} {dev : Device} (h : TableOk fp dev.tbt) {ps n : Nat} {b : ℚ}
    (hb : interpolateBW fp dev.tbt dev.maxBw ps n = .ok b) :
    0 ≤ b ∧ fp.f32.Rep b ∧ b ≤ dev.maxBw * (1 + 1 / 2097152) := by
  obtain ⟨size, bw, hp⟩ := getLast?_peak h
  have hps : 0 < ps := by
    unfold interpolateBW at hb
    obtain ⟨_, h1, _⟩ := Out.bind_eq_ok.mp hb
    simpa [Out.assert_eq_ok] using h1
  have hI := h.rising
  rcases Nat.eq_zero_or_pos n with rfl | hn
  · unfold interpolateBW at hb
    obtain ⟨_, _, hb⟩ := Out.bind_eq_ok.mp hb
    obtain ⟨e, he, rfl⟩ := interpGo_zero _ _ hb
    refine ⟨hI.nonneg e he, h.floats e he, ?_⟩
    have h1 := (interpolateBW_eq h hp hps (Nat.one_pos))
    have hm : e.2 ≤ dev.maxBw := by
      have : ∀ (l : List (Nat × ℚ)) (m : ℚ), m ≤ l.foldl (fun m e => max m e.2) m ∧
          ∀ e ∈ l, e.2 ≤ l.foldl (fun m e => max m e.2) m := by
        intro l
        induction l with
        | nil => intro m; simp
        | cons a l ih =>
          intro m
          obtain ⟨i1, i2⟩ := ih (max m a.2)
          rw [List.foldl_cons]
          refine ⟨le_trans (le_max_left _ _) i1, fun e he => ?_⟩
          rcases List.mem_cons.mp he with rfl | he
          · exact le_trans (le_max_right _ _) i1
          · exact i2 e he
      exact (this dev.tbt 0).2 e he
    have := h1.2.2.1
    rw [← h1.1] at this
    nlinarith
  · obtain ⟨h1, h2, h3, h4, h5, h6⟩ := interpolateBW_eq h hp hps hn
    rw [h6] at hb
    rw [← Out.ok.inj hb, h1]
    split
    · exact ⟨(blended_pos fp hn h3 h4).le, fp.f32.rep_fl _, blended_le fp hn h3.le h4.le h5⟩
    · exact ⟨h3.le, h2, by nlinarith⟩

theorem rep_min {R : Rounding} {a b : ℚ} (ha : R.Rep a) (hb : R.Rep b) : R.Rep (min a b) := by
  rcases min_choice a b with h | h <;> rw [h] <;> assumption

/-- Bandwidth before derating: not negative, a `float`, at most the injection rate. -/
theorem tableBw_ok {fp : FP} {dev : Device} (h : TableOk fp dev.tbt) {t : TState} {b : ℚ}
    (hb : tableBw fp dev t = .ok b) :
    (0 ≤ t.params.injectionRate → 0 ≤ b) ∧ (fp.f32.Rep t.params.injectionRate → fp.f32.Rep b) ∧
      b ≤ t.params.injectionRate ∧ b ≤ dev.maxBw * (1 + 1 / 2097152) := by
  unfold tableBw at hb
  obtain ⟨x, h1, h2⟩ := Out.bind_eq_ok.mp hb
  obtain ⟨a1, a2, a3⟩ := interpolateBW_ok h h1
  rw [← Out.ok.inj h2]
  exact ⟨fun h => le_min h a1, fun h => rep_min h a2, min_le_left _ _, le_trans (min_le_right _ _) a3⟩

/-- Derating never raises a bandwidth, whatever the sign of the factor. -/
theorem applyDerate_le' {fp : FP} {dev : Device} {bw : ℚ} {d : Option ℚ} (hb : 0 ≤ bw)
    (hr : fp.f32.Rep bw) : applyDerate fp dev bw d ≤ bw := by
  cases d with
  | none => exact le_rfl
  | some d =>
    unfold applyDerate
    simp only
    split
    · rename_i hd
      split
      · exact fp.f32.fl_le_of_rep hr (by nlinarith)
      · have h1 : 0 ≤ fp.f32.fl (1 - d) := fp.f32.fl_nonneg (by linarith)
        have h2 : fp.f64.fl (1 - fp.f32.fl (1 - d)) ≤ 1 := fp.f64.fl_le_one (by linarith)
        refine fp.f32.fl_le_of_rep hr ?_
        have h3 : fp.f64.fl (bw * fp.f64.fl (1 - fp.f32.fl (1 - d))) ≤ fp.f64.fl bw :=
          fp.f64.mono (by nlinarith)
        have h4 : fp.f64.fl bw = bw := by
          have h5 := fp.f32_rep64 bw
          have h6 : fp.f32.fl bw = bw := hr
          rwa [h6] at h5
        linarith
    · exact le_rfl

/-- Both parts of the rate computation, for one live transfer. -/
theorem computeRates_bw {fp : FP} {dev : Device} {en : Bool} {sot curr : Nat} {g g' : Grids}
    {ts ts' : List TState} {live : List Nat} (hn : live.Nodup)
    (h : computeRates fp dev en sot curr g ts live = .ok (ts', g')) :
    ts'.length = ts.length ∧ (∀ i ∉ live, ts'[i]? = ts[i]?) ∧ (en = false → g' = g) ∧
    ∀ i ∈ live, ∃ t b d, ts[i]? = some t ∧ tableBw fp dev t = .ok b ∧
      ts'[i]? = some { t with bw := applyDerate fp dev b d } ∧ (en = false → d = none) := by
  unfold computeRates at h
  obtain ⟨ts1, h1, h⟩ := Out.bind_eq_ok.mp h
  have w1 := updateTransferBandwidth_written hn h1
  cases en with
  | false =>
    simp only [Bool.false_eq_true, if_false, Out.ok.injEq, Prod.mk.injEq] at h
    rw [← h.1, ← h.2]
    refine ⟨w1.1, w1.2.1, fun _ => rfl, fun i hi => ?_⟩
    obtain ⟨t, b, a1, a2, a3⟩ := w1.2.2 i hi
    exact ⟨t, b, none, a1, a2, a3, fun _ => rfl⟩
  | true =>
    simp only [if_true] at h
    obtain ⟨_, _, w2⟩ := modelCongestion_parts hn h
    refine ⟨w2.1.trans w1.1, fun i hi => (w2.2.1 i hi).trans (w1.2.1 i hi), by simp, fun i hi => ?_⟩
    obtain ⟨t, b, a1, a2, a3⟩ := w1.2.2 i hi
    obtain ⟨t', b', c1, c2, c3⟩ := w2.2.2 i hi
    rw [a3] at c1
    have e := Option.some.inj c1
    subst e
    unfold deratedBw at c2
    obtain ⟨d, d1, d2⟩ := Out.bind_eq_ok.mp c2
    rw [← Out.ok.inj d2] at c3
    exact ⟨t, b, d, a1, a2, c3, by simp⟩

/-! ### Order -/

theorem contrib_perm {c : TState → List ℚ} {ts : List TState} {live live' : List Nat}
    (h : live.Perm live') : (contrib c ts live).Perm (contrib c ts live') := by
  unfold contrib
  exact h.flatMap_right _

theorem accumulated_perm {dev : Device} {sot curr : Nat} {ts : List TState} {live live' : List Nat}
    {g0 g g' : Grids} (hp : live.Perm live')
    (h : Accumulated .exact dev sot curr ts live g0 g)
    (h' : Accumulated .exact dev sot curr ts live' g0 g') : g' = g := by
  have key : ∀ c : TState → List ℚ, accum .exact (contrib c ts live') = accum .exact (contrib c ts live) := by
    intro c; funext y
    rw [accum_exact, accum_exact, (contrib_perm hp).sum_eq]
  obtain ⟨_, _, _, a1, a2, a3⟩ := h
  obtain ⟨_, _, _, b1, b2, b3⟩ := h'
  cases g; cases g'
  simp only [Grids.mk.injEq]
  refine ⟨List.ext_getElem? fun k => ?_, List.ext_getElem? fun k => ?_, List.ext_getElem? fun k => ?_⟩
  · have := a1 k; have := b1 k; simp_all
  · have := a2 k; have := b2 k; simp_all
  · have := a3 k; have := b3 k; simp_all

theorem updateTransferBandwidth_perm {fp : FP} {dev : Device} {ts ts' : List TState} {live live' : List Nat}
    (hn : live.Nodup) (hp : live.Perm live') (h : updateTransferBandwidth fp dev ts live = .ok ts') :
    updateTransferBandwidth fp dev ts live' = .ok ts' := by
  have w := updateTransferBandwidth_written hn h
  have hn' := hp.nodup_iff.mp hn
  have e : updateBwOne fp dev = setBw (tableBw fp dev) := by
    funext a b; exact updateBwOne_eq fp dev a b
  obtain ⟨ts2, h2⟩ := foldlM_setBw_ok (g := tableBw fp dev) live' ts hn' (by
    intro i hi
    obtain ⟨t, b, a1, a2, _⟩ := w.2.2 i (hp.symm.subset hi)
    exact ⟨t, b, a1, a2⟩)
  have h2' : updateTransferBandwidth fp dev ts live' = .ok ts2 := by
    unfold updateTransferBandwidth; rw [e]; exact h2
  have w2 := updateTransferBandwidth_written hn' h2'
  rw [h2', Written.ext (fun i => hp.mem_iff) w w2]

theorem modelCongestion_perm {dev : Device} {sot curr : Nat} {ts ts' : List TState} {live live' : List Nat}
    {g : Grids} (hn : live.Nodup) (hp : live.Perm live')
    (h : modelCongestion .exact dev sot curr ts live = .ok (ts', g)) :
    modelCongestion .exact dev sot curr ts live' = .ok (ts', g) := by
  obtain ⟨p1, p2, p3⟩ := modelCongestion_parts hn h
  have hn' := hp.nodup_iff.mp hn
  obtain ⟨ts2, g2, h2⟩ := modelCongestion_of (fp := .exact) (sot := sot) (curr := curr) hn'
    (fun i hi => p1 i (hp.symm.subset hi)) (fun g2 ha i hi t ht => by
      rw [accumulated_perm hp p2 ha]
      obtain ⟨t', b, a1, a2, _⟩ := p3.2.2 i (hp.symm.subset hi)
      rw [ht] at a1
      rw [Option.some.inj a1]
      exact ⟨b, a2⟩)
  obtain ⟨_, q2, q3⟩ := modelCongestion_parts hn' h2
  have e := accumulated_perm hp p2 q2
  subst e
  rw [h2, Written.ext (fun i => hp.mem_iff) p3 q3]

/-! ### Disjoint resources -/

theorem contrib_insert {c : TState → List ℚ} {ts : List TState} {a b : List Nat} {j : Nat}
    (h : ∀ u, ts[j]? = some u → c u = []) : contrib c ts (a ++ j :: b) = contrib c ts (a ++ b) := by
  rw [contrib_append, contrib_append, contrib_cons]
  cases hj : ts[j]? with
  | none => simp
  | some u => simp [h u hj]

theorem disjoint_bw {fp : FP} {dev : Device} {sot curr : Nat} {ts ts1 ts2 : List TState} {a b : List Nat}
    {i j : Nat} {g1 g2 : Grids} {t u : TState} (hn : (a ++ j :: b).Nodup) (hi : i ∈ a ++ b)
    (ht : ts[i]? = some t) (hu : ts[j]? = some u) (hroute : ∀ l ∈ t.route, l ∉ u.route)
    (hniu : ∀ L M, loads dev t.params = .ok L → loads dev u.params = .ok M → ∀ k ∈ L, k ∉ M)
    (h1 : modelCongestion fp dev sot curr ts (a ++ b) = .ok (ts1, g1))
    (h2 : modelCongestion fp dev sot curr ts (a ++ j :: b) = .ok (ts2, g2)) :
    ts1[i]? = ts2[i]? := by
  have hn1 : (a ++ b).Nodup := by
    rw [List.nodup_append] at hn ⊢
    obtain ⟨x1, x2, x3⟩ := hn
    exact ⟨x1, (List.nodup_cons.mp x2).2, fun y hy z hz => x3 y hy z (List.mem_cons_of_mem _ hz)⟩
  obtain ⟨p1, p2, p3⟩ := modelCongestion_parts hn1 h1
  obtain ⟨q1, q2, q3⟩ := modelCongestion_parts hn h2
  have hi2 : i ∈ a ++ j :: b := by
    rcases List.mem_append.mp hi with h | h
    · exact List.mem_append_left _ h
    · exact List.mem_append_right _ (List.mem_cons_of_mem _ h)
  obtain ⟨t1, b1, a1, a2, a3⟩ := p3.2.2 i hi
  obtain ⟨t2, b2, c1, c2, c3⟩ := q3.2.2 i hi2
  rw [ht] at a1 c1
  have e := Option.some.inj a1
  subst e
  have e := Option.some.inj c1
  subst e
  obtain ⟨t', ht', ⟨L, hL, hLr⟩, hlr, _⟩ := p1 i hi
  rw [ht] at ht'
  have e := Option.some.inj ht'
  subst e
  obtain ⟨u', hu', ⟨M, hM, hMr⟩, hur, _⟩ := q1 j (by simp)
  rw [hu] at hu'
  have e := Option.some.inj hu'
  subst e
  have hover : overallDerate fp dev g2 t = overallDerate fp dev g1 t := by
    refine overallDerate_congr hL (fun l hl => ?_) (fun k hk => ?_)
    · rw [p2.2.2.2.2.1, q2.2.2.2.2.1, contrib_insert]
      intro v hv
      rw [hu] at hv
      rw [← Option.some.inj hv]
      unfold linkC
      rw [Int.toNat_of_nonneg (hlr l hl).1, List.count_eq_zero_of_not_mem (hroute l hl)]; rfl
    · rw [p2.2.2.2.1, q2.2.2.2.1, contrib_insert]
      intro v hv
      rw [hu] at hv
      rw [← Option.some.inj hv]
      unfold niuC
      rw [hM, Int.toNat_of_nonneg (hLr k hk).1]
      show List.replicate (M.count k) _ = _
      rw [List.count_eq_zero_of_not_mem (hniu L M hL hM k hk)]; rfl
  have : b1 = b2 := by
    unfold deratedBw at a2 c2
    rw [hover, a2] at c2
    exact Out.ok.inj c2
  rw [a3, c3, this]

end NPE
