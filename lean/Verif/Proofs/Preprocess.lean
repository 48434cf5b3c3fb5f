import Verif.Proofs.TotalApi

/-
Preprocessing and validation of built workloads.
-/

namespace NPE
open Spec (DeviceOk Executable Reachable OnGrid IsCore)

theorem map_eq_of_forall₂ {α β : Type} {f : α → β} {l m : List α}
    (h : List.Forall₂ (fun a b => f b = f a) l m) : m.map f = l.map f := by
  induction h with
  | nil => rfl
  | cons h _ ih => simp [h, ih]

namespace Workload

theorem assignIds_id {p : Int} : ∀ (n : Nat) (ts : List Transfer),
    ts.map (·.id) = (List.range' n ts.length).map (fun (k : Nat) => (k : Int)) →
    (∀ t ∈ ts, t.phaseId = p) → assignIds p n ts = ts := by
  intro n ts
  induction ts generalizing n with
  | nil => intro _ _; rfl
  | cons t ts ih =>
    intro h hp
    simp only [List.map_cons, List.length_cons, List.range'_succ, List.cons.injEq] at h
    rw [assignIds, ih (n + 1) h.2 fun u hu => hp u (List.mem_cons_of_mem _ hu)]
    have h1 := hp t (by simp)
    cases t
    simp only at h h1
    rw [h.1, h1]

/-- Adding the phases of a dense workload again assigns the same identifiers. -/
theorem foldl_addPhase_dense : ∀ (phs : List Phase) (w : Workload),
    (∀ (k : Nat) (ph : Phase), phs[k]? = some ph → ph.id = ((w.phases.length + k : Nat) : Int) ∧
      ∀ t ∈ ph.transfers, t.phaseId = ph.id) →
    (phs.flatMap (·.transfers)).map (·.id) =
      (List.range' w.gblTransferId (phs.flatMap (·.transfers)).length).map (fun (k : Nat) => (k : Int)) →
    (phs.foldl addPhase w).phases = w.phases ++ phs ∧
      (phs.foldl addPhase w).gblTransferId = w.gblTransferId + (phs.flatMap (·.transfers)).length := by
  intro phs
  induction phs with
  | nil => intro w _ _; simp
  | cons ph phs ih =>
    intro w h1 h2
    obtain ⟨hid, hpt⟩ := h1 0 ph rfl
    simp only [List.flatMap_cons, List.map_append, List.length_append, ← List.range'_append_1] at h2
    obtain ⟨ha, hb⟩ := List.append_inj h2 (by simp)
    have hph : (w.addPhase ph).phases = w.phases ++ [ph] := by
      unfold addPhase
      simp only
      rw [assignIds_id w.gblTransferId ph.transfers ha (by intro t ht; rw [hpt t ht, hid]; simp)]
      congr 1
      cases ph
      simp only at hid ⊢
      rw [hid]; rfl
    have hgb : (w.addPhase ph).gblTransferId = w.gblTransferId + ph.transfers.length := rfl
    rw [List.foldl_cons]
    obtain ⟨e1, e2⟩ := ih (w.addPhase ph) (by
      intro k ph' hk
      obtain ⟨a, b⟩ := h1 (k + 1) ph' (by simpa using hk)
      refine ⟨?_, b⟩
      rw [a, hph]
      simp only [List.length_append, List.length_singleton]
      omega) (by rw [hgb]; exact hb)
    rw [e1, e2, hph, hgb]
    simp only [List.append_assoc, List.singleton_append, List.flatMap_cons, List.length_append, true_and]
    omega

theorem Dense.rebuild {wl : Workload} (h : Dense wl) :
    (build wl.phases).phases = wl.phases ∧ (build wl.phases).gblTransferId = wl.gblTransferId := by
  have := foldl_addPhase_dense wl.phases {} (by
    intro k ph hk
    refine ⟨?_, h.phase ph (List.mem_of_getElem? hk)⟩
    have h1 : (wl.phases.map (·.id))[k]? = some ph.id := by rw [List.getElem?_map, hk]; rfl
    rw [h.phaseIds, List.getElem?_map, List.getElem?_range (List.getElem?_eq_some_iff.mp hk).1] at h1
    simpa using h1.symm) (by
    have h2 := h.ids
    rw [h.gbl, List.range_eq_range'] at h2
    exact h2)
  simp only [List.nil_append, Nat.zero_add] at this
  exact ⟨this.1, by rw [h.gbl]; exact this.2⟩

/-- Validation of a workload with dense identifiers. -/
theorem validate_dense {wl : Workload} (hw : Dense wl) (dev : Device)
    (hv : ∀ t ∈ wl.transfers, ∃ b, t.validate dev = .ok b) :
    wl.validate dev = .ok (decide (invalidCount dev wl.transfers = 0)) := by
  have h := validate_build dev wl.phases (fun ph hph t ht => hv t (List.mem_flatMap.mpr ⟨ph, hph, ht⟩))
  obtain ⟨h1, h2⟩ := hw.rebuild
  unfold validate at h ⊢
  rw [h1, h2] at h
  exact h

/-- A pass over all transfers that keeps their identifiers. -/
theorem mapTransfersM_total {f : Transfer → Out Transfer} {wl : Workload} (Q : Transfer → Transfer → Prop)
    (hf : ∀ t ∈ wl.transfers, ∃ t', f t = .ok t' ∧ Q t t')
    (hid : ∀ t t', f t = .ok t' → t'.id = t.id ∧ t'.phaseId = t.phaseId) :
    ∃ wl', wl.mapTransfersM f = .ok wl' ∧ wl'.golden = wl.golden ∧
      List.Forall₂ Q wl.transfers wl'.transfers ∧ (Dense wl → Dense wl') := by
  have hph : ∀ ph ∈ wl.phases, ∃ ts, Out.mapM f ph.transfers = .ok ts ∧ List.Forall₂ Q ph.transfers ts ∧
      List.Forall₂ (fun t t' => t'.id = t.id ∧ t'.phaseId = t.phaseId) ph.transfers ts := by
    intro ph hph
    have : ∀ l : List Transfer, (∀ t ∈ l, t ∈ wl.transfers) → ∃ ts, Out.mapM f l = .ok ts ∧
        List.Forall₂ Q l ts ∧ List.Forall₂ (fun t t' => t'.id = t.id ∧ t'.phaseId = t.phaseId) l ts := by
      intro l
      induction l with
      | nil => intro _; exact ⟨[], rfl, .nil, .nil⟩
      | cons t l ih =>
        intro hl
        obtain ⟨t', h1, h2⟩ := hf t (hl t (by simp))
        obtain ⟨ts, h3, h4, h5⟩ := ih fun u hu => hl u (List.mem_cons_of_mem _ hu)
        refine ⟨t' :: ts, ?_, .cons h2 h4, .cons (hid t t' h1) h5⟩
        rw [Out.mapM_cons, h1, Out.bind_ok, h3, Out.bind_ok]
    exact this _ fun t ht => List.mem_flatMap.mpr ⟨ph, hph, ht⟩
  have hall : ∀ phs : List Phase, (∀ ph ∈ phs, ph ∈ wl.phases) → ∃ phs',
      Out.mapM (fun (ph : Phase) => do
        let ts ← Out.mapM f ph.transfers
        return { ph with transfers := ts }) phs = .ok phs' ∧
      phs'.map (·.id) = phs.map (·.id) ∧
      List.Forall₂ Q (phs.flatMap (·.transfers)) (phs'.flatMap (·.transfers)) ∧
      (phs'.flatMap (·.transfers)).map (·.id) = (phs.flatMap (·.transfers)).map (·.id) ∧
      ((∀ ph ∈ phs, ∀ t ∈ ph.transfers, t.phaseId = ph.id) →
        ∀ ph ∈ phs', ∀ t ∈ ph.transfers, t.phaseId = ph.id) := by
    intro phs
    induction phs with
    | nil => intro _; exact ⟨[], rfl, rfl, .nil, rfl, fun _ => by simp⟩
    | cons ph phs ih =>
      intro hm
      obtain ⟨ts, h1, h2, h3⟩ := hph ph (hm ph (by simp))
      obtain ⟨phs', g1, g2, g3, g4, g5⟩ := ih fun p hp => hm p (List.mem_cons_of_mem _ hp)
      refine ⟨{ ph with transfers := ts } :: phs', ?_, ?_, ?_, ?_, ?_⟩
      · rw [Out.mapM_cons, h1, Out.bind_ok, Out.pure_eq, Out.bind_ok, g1, Out.bind_ok]
      · simp [g2]
      · exact List.rel_append h2 g3
      · simp only [List.flatMap_cons, List.map_append, g4]
        rw [map_eq_of_forall₂ (h3.imp fun _ _ h => h.1)]
      · intro hp p hpm
        rcases List.mem_cons.mp hpm with e | hpm
        · subst e
          intro t' ht'
          obtain ⟨t, ht, he⟩ := forall₂_exists_of_mem_right h3 ht'
          rw [he.2]; exact hp ph (by simp) t ht
        · exact g5 (fun q hq => hp q (List.mem_cons_of_mem _ hq)) p hpm
  obtain ⟨phs', h1, h2, h3, h4, h5⟩ := hall wl.phases fun _ h => h
  refine ⟨{ wl with phases := phs' }, ?_, rfl, h3, ?_⟩
  · unfold mapTransfersM
    rw [h1]; rfl
  · intro hw
    have hl : phs'.length = wl.phases.length := by
      have := congrArg List.length h2
      simpa using this
    refine ⟨?_, ?_, ?_, h5 hw.phase⟩
    · show phs'.map (·.id) = _
      rw [h2, hw.phaseIds]
      simp only [hl]
    · show (phs'.flatMap (·.transfers)).map (·.id) = _
      rw [h4]; exact hw.ids
    · show wl.gblTransferId = (phs'.flatMap (·.transfers)).length
      rw [hw.gbl, ← h3.length_eq]; rfl

end Workload
open Workload

theorem Executable.congr {dev : Device} {t t' : Transfer} (h1 : t'.numPackets = t.numPackets)
    (h2 : t'.packetSize = t.packetSize) (h3 : t'.totalBytes = t.totalBytes) (h4 : t'.src = t.src)
    (h5 : t'.dst = t.dst) (h6 : t'.groupId = t.groupId) (h7 : t'.groupParent = t.groupParent)
    (h : Executable dev t) : Executable dev t' := by
  refine ⟨?_, ?_, ?_, ?_, ?_, ?_⟩
  · rw [h1]; exact h.packets
  · rw [h2]; exact h.size
  · rw [h3]; exact h.bytes
  · rw [h4]; exact h.src
  · rw [h4, h5]; exact h.dst
  · rw [h5, h6, h7]; exact h.parent

theorem exec_validate {dev : Device} {t : Transfer} (h : Executable dev t) : t.validate dev = .ok true := by
  have hd := h.dst
  have hs : validCoord dev t.src = true := by
    have := h.src.2
    simp only [validCoord, Bool.and_eq_true, decide_eq_true_eq]
    exact this
  have hc : dev.isValidDeviceID t.src.dev = true := by
    have := h.src.1
    simp only [Device.isValidDeviceID, Bool.and_eq_true, decide_eq_true_eq]
    exact this
  have h1 := h.packets
  have h2 := h.size.1
  unfold Transfer.validate
  cases hdst : t.dst with
  | unicast e =>
    rw [hdst] at hd
    cases hd with
    | core _ he hdv =>
      have he' : validCoord dev e = true := by
        have := he.2
        simp only [validCoord, Bool.and_eq_true, decide_eq_true_eq]
        exact this
      simp only [Dest.deviceIDs, validDst, hs, hc, he', hdv, Out.ok.injEq, Bool.and_eq_true,
        decide_eq_true_eq]
      exact ⟨⟨⟨⟨⟨h1, h2⟩, trivial⟩, trivial⟩, trivial⟩, trivial⟩
  | mcast gs =>
    rw [hdst] at hd
    cases hd with
    | rect g hlo hhi _ _ hdv =>
      have e1 : validCoord dev g.lo = true := by
        simp only [validCoord, Bool.and_eq_true, decide_eq_true_eq]
        exact hlo
      have e2 : validCoord dev g.hi = true := by
        simp only [validCoord, Bool.and_eq_true, decide_eq_true_eq]
        exact hhi
      simp only [Dest.deviceIDs, List.map_cons, List.map_nil, validDst, List.foldl_cons, List.foldl_nil,
        hs, hc, e1, e2, hdv, Out.ok.injEq, Bool.and_eq_true, decide_eq_true_eq]
      exact ⟨⟨⟨⟨⟨h1, h2⟩, trivial⟩, by simp⟩, trivial⟩, trivial⟩

theorem exec_validate_all {dev : Device} {wl : Workload} (hw : wl.Dense)
    (h : ∀ t ∈ wl.transfers, Executable dev t) : wl.validate dev = .ok true := by
  rw [validate_dense hw dev fun t ht => ⟨true, exec_validate (h t ht)⟩]
  rw [Out.ok.injEq, decide_eq_true_eq, invalidCount_eq_zero]
  exact fun t ht => exec_validate (h t ht)

theorem scaleOffset_total {fp : FP} {scale : ℚ} (hs : 0 ≤ scale) {o : Nat}
    (h : (o : ℚ) * scale ≤ 4294967295 / 2) : ∃ r, scaleOffset fp scale o = .ok r := by
  unfold scaleOffset
  simp only
  have h0 : (0 : ℚ) ≤ o := by positivity
  have a1 := fp.f32.fl_le_err h0
  have a2 : 0 ≤ fp.f32.fl (o : ℚ) := fp.f32.fl_nonneg h0
  have b0 : 0 ≤ fp.f32.fl (o : ℚ) * scale := mul_nonneg a2 hs
  have b1 := fp.f32.fl_le_err b0
  have b2 := fp.f32.fl_nonneg b0
  have c1 : fp.f32.fl (o : ℚ) * scale ≤ o * scale * (1 + 1 / 16777216) := by
    have := mul_le_mul_of_nonneg_right a1 hs
    linarith
  rw [if_pos ⟨by linarith, by linarith⟩]
  exact ⟨_, rfl⟩

theorem golden_set {m : GoldenMap} {k d : Int} {v : Nat × Nat} (h : ∃ g, m.at d = .ok g) :
    ∃ g, (m.set k v).at d = .ok g := by
  obtain ⟨g, hg⟩ := h
  unfold GoldenMap.at GoldenMap.set at *
  by_cases e : d = k
  · subst e
    rw [List.lookup_cons_self]
    exact ⟨v, rfl⟩
  · have e' : (d == k) = false := by simpa using e
    rw [List.lookup_cons, e']
    simp only
    have : ∀ l : GoldenMap, (l.filter fun x => decide (x.1 ≠ k)).lookup d = l.lookup d := by
      intro l
      induction l with
      | nil => rfl
      | cons x l ih =>
        by_cases hx : x.1 = k
        · rw [List.filter_cons_of_neg (by simpa using hx), ih]
          obtain ⟨x1, x2⟩ := x
          simp only at hx
          subst hx
          rw [List.lookup_cons, e']
        · rw [List.filter_cons_of_pos (by simpa using hx)]
          obtain ⟨x1, x2⟩ := x
          rw [List.lookup_cons, List.lookup_cons, ih]
    rw [this]
    exact ⟨g, hg⟩

/-- Preprocessing of a workload of executable transfers. -/
theorem preprocess_total {fp : FP} {api : Api}
    (hinj : ∀ c, 0 ≤ api.dev.injRate c ∧ fp.f32.Rep (api.dev.injRate c)) {wl : Workload} (hw : wl.Dense)
    (hx : ∀ t ∈ wl.transfers, Executable api.dev t)
    (hrate : api.cfg.inferInjectionRate = true ∨
      ∀ t ∈ wl.transfers, 0 ≤ t.injectionRate ∧ fp.f32.Rep t.injectionRate)
    (hscale : api.cfg.scaleSchedule = 0 ∨ (0 ≤ api.cfg.scaleSchedule ∧
      ∀ t ∈ wl.transfers, (t.offset : ℚ) * api.cfg.scaleSchedule ≤ 4294967295 / 2)) :
    ∃ wl', api.preprocess fp wl = .ok wl' ∧ wl'.Dense ∧ (∀ t ∈ wl'.transfers, Executable api.dev t) ∧
      (∀ t ∈ wl'.transfers, 0 ≤ t.injectionRate ∧ fp.f32.Rep t.injectionRate) ∧
      ∀ d, (∃ g, wl.golden.at d = .ok g) → ∃ g, wl'.golden.at d = .ok g := by
  have s1 : ∃ w1, (if api.cfg.inferInjectionRate then wl.inferInjectionRates api.dev else .ok wl) = .ok w1 ∧
      w1.Dense ∧ (∀ t ∈ w1.transfers, Executable api.dev t) ∧
      (∀ t ∈ w1.transfers, 0 ≤ t.injectionRate ∧ fp.f32.Rep t.injectionRate) ∧ w1.golden = wl.golden ∧
      ∀ t' ∈ w1.transfers, ∃ t ∈ wl.transfers, t'.offset = t.offset := by
    by_cases hi : api.cfg.inferInjectionRate = true
    · rw [if_pos hi]
      obtain ⟨w1, h1, h2, h3, h4⟩ := mapTransfersM_total (f := fun t => do
          let r ← api.dev.getSrcInjectionRate t.src
          return { t with injectionRate := r }) (wl := wl)
        (fun t t' => ∃ c, t' = { t with injectionRate := api.dev.injRate c }) (by
          intro t ht
          obtain ⟨ty, hty⟩ := getCoreType_total (dev := api.dev) (c := t.src)
            ⟨(hx t ht).src.2.1, (hx t ht).src.2.2⟩
          refine ⟨{ t with injectionRate := api.dev.injRate ty }, ?_, ty, rfl⟩
          unfold Device.getSrcInjectionRate
          rw [hty]; rfl) (by
          intro t t' h
          obtain ⟨r, _, h⟩ := Out.bind_eq_ok.mp h
          rw [← Out.ok.inj h]; exact ⟨rfl, rfl⟩)
      refine ⟨w1, h1, h4 hw, ?_, ?_, h2, ?_⟩
      · intro t' ht'
        obtain ⟨t, ht, c, rfl⟩ := forall₂_exists_of_mem_right h3 ht'
        exact Executable.congr (t := t) rfl rfl rfl rfl rfl rfl rfl (hx t ht)
      · intro t' ht'
        obtain ⟨t, ht, c, rfl⟩ := forall₂_exists_of_mem_right h3 ht'
        exact hinj c
      · intro t' ht'
        obtain ⟨t, ht, c, rfl⟩ := forall₂_exists_of_mem_right h3 ht'
        exact ⟨t, ht, rfl⟩
    · rw [if_neg hi]
      exact ⟨wl, rfl, hw, hx, hrate.resolve_left hi, rfl, fun t ht => ⟨t, ht, rfl⟩⟩
  obtain ⟨w1, e1, d1, x1, r1, g1, o1⟩ := s1
  have s2 : ∃ w2, (if api.cfg.scaleSchedule ≠ 0 then w1.scaleWorkloadSchedule fp api.cfg.scaleSchedule
      else .ok w1) = .ok w2 ∧
      w2.Dense ∧ (∀ t ∈ w2.transfers, Executable api.dev t) ∧
      (∀ t ∈ w2.transfers, 0 ≤ t.injectionRate ∧ fp.f32.Rep t.injectionRate) ∧ w2.golden = wl.golden := by
    by_cases hi : api.cfg.scaleSchedule = 0
    · rw [if_neg (by simpa using hi)]
      exact ⟨w1, rfl, d1, x1, r1, g1⟩
    · rw [if_pos hi]
      obtain ⟨hs0, hso⟩ := hscale.resolve_left hi
      obtain ⟨w2, h1, h2, h3, h4⟩ := mapTransfersM_total (f := fun t => do
          let o ← scaleOffset fp api.cfg.scaleSchedule t.offset
          return { t with offset := o }) (wl := w1)
        (fun t t' => ∃ o, t' = { t with offset := o }) (by
          intro t ht
          obtain ⟨t0, ht0, e⟩ := o1 t ht
          obtain ⟨o, ho⟩ := scaleOffset_total (fp := fp) hs0 (hso t0 ht0)
          refine ⟨{ t with offset := o }, ?_, o, rfl⟩
          rw [e, ho]; rfl) (by
          intro t t' h
          obtain ⟨r, _, h⟩ := Out.bind_eq_ok.mp h
          rw [← Out.ok.inj h]; exact ⟨rfl, rfl⟩)
      refine ⟨w2, h1, h4 d1, ?_, ?_, by rw [h2, g1]⟩
      · intro t' ht'
        obtain ⟨t, ht, c, rfl⟩ := forall₂_exists_of_mem_right h3 ht'
        exact Executable.congr (t := t) rfl rfl rfl rfl rfl rfl rfl (x1 t ht)
      · intro t' ht'
        obtain ⟨t, ht, c, rfl⟩ := forall₂_exists_of_mem_right h3 ht'
        exact r1 t ht
  obtain ⟨w2, e2, d2, x2, r2, g2⟩ := s2
  unfold Api.preprocess
  rw [e1, Out.bind_ok, e2, Out.bind_ok]
  by_cases hi : api.cfg.removeLocal = true
  · rw [if_pos hi]
    have hfold : w2.removeLocalUnicastTransfers =
        (w2.phases.map fun (ph : Phase) => ({ transfers := ph.transfers.filter keepNonLocal } : Phase)).foldl
          addPhase (({} : Workload).setGoldenResultCycles w2.golden) := by
      unfold removeLocalUnicastTransfers
      rw [List.foldl_map]
    have hmem : ∀ t ∈ w2.removeLocalUnicastTransfers.transfers, ∃ t0 ∈ w2.transfers,
        Spec.content t = Spec.content t0 := by
      intro t ht
      have h1 := foldl_addPhase_map Spec.content (fun _ _ _ => rfl)
        (w2.phases.map fun (ph : Phase) => ({ transfers := ph.transfers.filter keepNonLocal } : Phase))
        (({} : Workload).setGoldenResultCycles w2.golden)
      rw [← hfold] at h1
      obtain ⟨ph, hph, htp⟩ := List.mem_flatMap.mp ht
      have h2 : ph.transfers.map Spec.content ∈
          w2.removeLocalUnicastTransfers.phases.map (fun p => p.transfers.map Spec.content) :=
        List.mem_map.mpr ⟨ph, hph, rfl⟩
      rw [h1] at h2
      simp only [setGoldenResultCycles, List.map_nil, List.nil_append, List.map_map] at h2
      obtain ⟨ph0, hph0, e⟩ := List.mem_map.mp h2
      have h3 : Spec.content t ∈ ph.transfers.map Spec.content := List.mem_map_of_mem htp
      rw [← e] at h3
      obtain ⟨t0, ht0, e0⟩ := List.mem_map.mp h3
      exact ⟨t0, List.mem_flatMap.mpr ⟨ph0, hph0, List.mem_of_mem_filter ht0⟩, e0.symm⟩
    refine ⟨_, rfl, ?_, ?_, ?_, ?_⟩
    · rw [hfold]
      exact Dense.foldl _ _ ⟨rfl, rfl, rfl, by simp [setGoldenResultCycles]⟩
    · intro t ht
      obtain ⟨t0, ht0, e⟩ := hmem t ht
      have e' : ∀ {β : Type} (f : Transfer → β), f (Spec.content t) = f (Spec.content t0) := fun f =>
        congrArg f e
      exact Executable.congr (t := t0) (e' (·.numPackets)) (e' (·.packetSize)) (e' (·.totalBytes))
        (e' (·.src)) (e' (·.dst)) (e' (·.groupId)) (e' (·.groupParent)) (x2 t0 ht0)
    · intro t ht
      obtain ⟨t0, ht0, e⟩ := hmem t ht
      have : t.injectionRate = t0.injectionRate := by
        have h := congrArg Transfer.injectionRate e
        exact h
      rw [this]; exact r2 t0 ht0
    · intro d hd
      rw [hfold, (foldl_addPhase_other _ _).1]
      simp only [setGoldenResultCycles]
      exact golden_set (by rw [g2]; exact hd)
  · rw [if_neg hi]
    exact ⟨w2, rfl, d2, x2, r2, by rw [g2]; exact fun d h => h⟩

end NPE
