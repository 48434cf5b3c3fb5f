import Verif.Proofs.Liveness
import Verif.Spec.Timetable

/-
Every transfer is completed in time.
-/

namespace NPE
open NPE.Spec

/-- A transfer that was active before the timestep completes or moves at least `q` bytes. -/
theorem StepFacts.advance {q : Nat} {cfg : SimCfg} {c : Nat} {s s' : Sim} (hi : Inv c s)
    (F : StepFacts cfg c (c + cfg.cpt) s s') (h32 : c + cfg.cpt < 4294967296)
    {i : Nat} (hl : i ∈ s.live) (hq0 : 0 < q)
    (hp : ∀ t, s'.ts[i]? = some t → (q : ℚ) ≤ cfg.fp.f32.fl (cfg.fp.f32.fl cfg.cpt * t.bw))
    (hl' : i ∈ s'.live) {t t' : TState} (ht : s.ts[i]? = some t) (ht' : s'.ts[i]? = some t') :
    t.moved + q ≤ t'.moved := by
  have hl1 : i ∈ F.P.s1.live := (F.mem_live1 i).mpr (Or.inl hl)
  obtain ⟨u, t2, u', M⟩ := F.member hl1
  have e0 := M.before
  rw [ht] at e0
  have e0 := Option.some.inj e0
  subst e0
  have e0 := M.after
  rw [ht'] at e0
  have e0 := Option.some.inj e0
  subst e0
  obtain ⟨cyc, mx, hcyc, hmx, hend⟩ := M.ended
  have hq : i ∉ s.queue.map (·.2) := fun hc => (List.nodup_append.mp hi.nodup).2.2 i hc i hl rfl
  have hst : t2.start ≤ c := by
    rw [M.start.1 hl]
    exact (hi.started i t M.before hq).start_le.2
  rw [Nat.add_sub_cancel] at hcyc
  have hcc : cfg.cpt ≤ cyc := by
    rcases cyclesActive_cases hcyc (by omega) rfl h32 with h | ⟨cp, _, _, _, _, _, _, h⟩ <;> omega
  have hmv : t2.moved = t.moved := by rw [M.same]
  rcases hend with ⟨hlt, _, e⟩ | ⟨_, hn, _⟩
  · have hb := hp t' M.after
    rw [e] at hb
    simp only at hb
    have hc0 : 0 ≤ cfg.fp.f32.fl (cfg.cpt : ℚ) := cfg.fp.f32.fl_nonneg (by positivity)
    have hbw : 0 ≤ t2.bw := by
      by_contra hc
      have : cfg.fp.f32.fl (cfg.fp.f32.fl cfg.cpt * t2.bw) ≤ cfg.fp.f32.fl 0 :=
        cfg.fp.f32.mono (mul_nonpos_of_nonneg_of_nonpos hc0 (by linarith))
      rw [cfg.fp.f32.fl_zero] at this
      linarith [(Nat.cast_pos (α := ℚ)).mpr hq0]
    have hbig : (q : ℚ) ≤ cfg.fp.f32.fl (cfg.fp.f32.fl cyc * t2.bw) := by
      refine le_trans hb (cfg.fp.f32.mono (mul_le_mul_of_nonneg_right (cfg.fp.f32.mono ?_) hbw))
      exact_mod_cast hcc
    have hmx1 : q ≤ mx := by
      obtain ⟨_, _, e⟩ := toSize_ok hmx
      have : (q : ℤ) ≤ (cfg.fp.f32.fl (cfg.fp.f32.fl cyc * t2.bw)).floor := by
        rw [Rat.le_floor_iff]; exact_mod_cast hbig
      omega
    rw [e]
    simp only
    omega
  · exact absurd hl' hn

/-- A transfer that is active after the timestep has bytes left. -/
theorem StepFacts.unfinished {cfg : SimCfg} {prev curr : Nat} {s s' : Sim} (F : StepFacts cfg prev curr s s')
    {i : Nat} (hl : i ∈ s'.live) {t' : TState} (ht' : s'.ts[i]? = some t') :
    t'.moved < t'.params.totalBytes := by
  have hl1 : i ∈ F.P.s1.live := by
    rw [congrArg Sim.live F.P.res] at hl
    exact (List.mem_filter.mp hl).1
  obtain ⟨u, t2, u', M⟩ := F.member hl1
  have e0 := M.after
  rw [ht'] at e0
  have e0 := Option.some.inj e0
  subst e0
  obtain ⟨_, _, _, _, ⟨hlt, _, e⟩ | ⟨_, hn, _⟩⟩ := M.ended
  · rw [e]; exact hlt
  · exact absurd hl hn

/-- A transfer that has its turn and whose dependency is completed in time is activated. -/
theorem StepFacts.released {cfg : SimCfg} {c : Nat} {s0 s s' : Sim} (hr : RatesOk cfg.rates)
    (h0 : Inv 0 s0) (hs : Reach cfg s0 c s) (F : StepFacts cfg c (c + cfg.cpt) s s') {i : Nat} {t0 : TState}
    (ht0 : s0.ts[i]? = some t0) (hoff : t0.params.offset ≤ c + cfg.cpt)
    (hdep : ∀ j d, WaitsFor s0 i j d → ∃ tj, s.ts[j]? = some tj ∧ ¬ Waiting s j ∧ ¬ Active s j ∧
      tj.endc + d ≤ c + cfg.cpt) : ¬ Waiting s' i := by
  have hi := hs.inv hr h0
  rintro ⟨o, ho⟩
  have hq' : (o, i) ∈ F.P.s1.queue := by
    rw [congrArg Sim.queue F.P.res] at ho; exact ho
  obtain ⟨hio, hnd⟩ := List.mem_filter.mp (F.queuePerm.subset hq')
  have hnd : isDue s.ts s.deps (c + cfg.cpt) (o, i) ≠ true := by
    intro h; rw [h] at hnd; simp at hnd
  obtain ⟨t, ht, ep, _⟩ := hs.static_get' hr h0 ht0
  have ho' := (hi.waiting _ hio t ht).1
  simp only at ho'
  have hndone : s.deps.done t.dependsOn (c + cfg.cpt) ≠ .ok true := by
    intro hd
    exact hnd (isDue_iff.mpr ⟨by simp only; rw [ho', ep]; exact hoff, t, ht, hd⟩)
  rcases hi.waits_cases ht with ⟨hm, _⟩ | ⟨j, d, hw, _⟩
  · exact hndone (Tracker.done_eq_ok.mpr (Or.inl ⟨hm, rfl⟩))
  · obtain ⟨tj', e1, hjw, hja, hle⟩ := hdep j d ((hs.waitsFor_iff hr h0 i j d).mp hw)
    obtain ⟨ti, tj, cp, h1, h2, h3, h4, h5, h6⟩ := hw
    rw [ht] at h1
    have e := Option.some.inj h1
    subst e
    rw [h2] at e1
    have e := Option.some.inj e1
    subst e
    obtain ⟨cp', hcp', htot, _, hfin⟩ := hi.tracker j tj h2 _ h3
    rw [h5] at hcp'
    have e := Option.some.inj hcp'
    subst e
    obtain ⟨e1, e2⟩ := hfin ⟨by rw [← waiting_iff]; exact hjw, hja⟩
    apply hndone
    refine Tracker.done_eq_ok.mpr (Or.inr ⟨by omega, cp, Tracker.get_eq_ok.mpr ⟨h4, h5⟩, ?_⟩)
    simp only [Checkpoint.done, Bool.and_eq_true, decide_eq_true_eq]
    have := Nat.mod_le (cp.endc + cp.delay) 4294967296
    refine ⟨?_, by omega⟩
    rw [e1, htot]

/-- What a timetable says about a state: transfer `i`, which begins by `b`. -/
structure OnTime (q : Nat → Nat) (cpt c : Nat) (s : Sim) (i b : Nat) (t : TState) : Prop where
  wait : Waiting s i → c < b
  move : Active s i → b ≤ c → q i * ((c - b) / cpt) ≤ t.moved
  done : ¬ Waiting s i → ¬ Active s i → t.endc ≤ b + (steps (q i) t.params.totalBytes + 2) * cpt + 32

theorem steps_cover {q n : Nat} (hq : 0 < q) : n ≤ q * steps q n := by
  unfold steps
  have h1 := Nat.div_add_mod (n + q - 1) q
  have h2 := Nat.mod_lt (n + q - 1) hq
  omega

theorem OnTime.over {q : Nat → Nat} {cpt c : Nat} {s : Sim} {i b : Nat} {t : TState} (h : OnTime q cpt c s i b t)
    (hcpt : 0 < cpt) (hq : 0 < q i) (hleft : Active s i → t.moved < t.params.totalBytes)
    (hc : b + steps (q i) t.params.totalBytes * cpt ≤ c) : ¬ Waiting s i ∧ ¬ Active s i := by
  refine ⟨fun hw => ?_, fun ha => ?_⟩
  · have := h.wait hw; omega
  · have h1 := h.move ha (by omega)
    have h2 := hleft ha
    have h3 : steps (q i) t.params.totalBytes ≤ (c - b) / cpt := by
      rw [Nat.le_div_iff_mul_le hcpt]; omega
    have h4 := Nat.mul_le_mul_left (q i) h3
    have h5 := steps_cover (n := t.params.totalBytes) hq
    omega

/-- The invariant of a run with a timetable. -/
theorem Spec.Reach.onTime {q : Nat → Nat} (hq0 : ∀ i, 0 < q i) {cfg : SimCfg} (hr : RatesOk cfg.rates) {s0 : Sim}
    (h0 : Inv 0 s0) (he0 : ∀ t ∈ s0.ts, t.endc = 0) (hlive0 : s0.live = [])
    (hwait0 : ∀ i < s0.ts.length, Waiting s0 i) (hcpt : 0 < cfg.cpt) (hcpt2 : cfg.cpt ≤ 25000000)
    (hmove : MovesEach cfg s0 q) {due : Nat → Nat} (htt : Timetable s0 q cfg.cpt due)
    {c : Nat} {s : Sim} (hs : Reach cfg s0 c s) :
    (∀ (i : Nat) t, s.ts[i]? = some t → t.endc ≤ c + cfg.cpt + 32) ∧
    (∀ (i : Nat) t, s.ts[i]? = some t → Active s i → t.moved < t.params.totalBytes) ∧
    ∀ (i b : Nat) (t0 : TState), s0.ts[i]? = some t0 → t0.params.offset < b →
      (∀ j d, WaitsFor s0 i j d → due j + d + cfg.cpt ≤ b) →
      ∀ t, s.ts[i]? = some t → OnTime q cfg.cpt c s i b t := by
  induction hs with
  | start =>
    refine ⟨?_, ?_, ?_⟩
    · intro i t ht
      rw [he0 t (List.mem_of_getElem? ht)]
      exact Nat.zero_le _
    · intro i t ht ha
      unfold Active at ha
      rw [hlive0] at ha
      simp at ha
    · intro i b t0 ht0 hb _ t ht
      refine ⟨fun _ => by omega, fun ha => ?_, fun hw => ?_⟩
      · unfold Active at ha
        rw [hlive0] at ha
        simp at ha
      · exact absurd (hwait0 i (List.getElem?_eq_some_iff.mp ht).1) hw
  | @step c s s' hs hcond h ih =>
    obtain ⟨a1, a2, a3⟩ := ih
    have hc : c ≤ 50000000 := by rcases hcond with h | ⟨h, _⟩ <;> omega
    have hi := hs.inv hr h0
    obtain ⟨F⟩ := step_facts hr (Nat.le_add_right _ _) hi h
    have hend := F.endc_le (by omega) (B := (c + cfg.cpt) + cfg.cpt + 32) (by omega)
      (fun i t ht => le_trans (a1 i t ht) (by omega))
    refine ⟨hend, fun i t ht ha => F.unfinished ha ht, ?_⟩
    intro i b t0 ht0 hb hdep t' ht'
    have hlt : i < s.ts.length := by
      rw [← F.len]; exact (List.getElem?_eq_some_iff.mp ht').1
    have ht : s.ts[i]? = some s.ts[i] := List.getElem?_eq_getElem hlt
    set t := s.ts[i] with htdef
    have O := a3 i b t0 ht0 hb hdep t ht
    have hparams : t'.params = t.params := by
      obtain ⟨_, e1, e2, _⟩ := hs.static_get hr h0 ht
      obtain ⟨_, e3, e4, _⟩ := (Reach.step hs hcond h).static_get hr h0 ht'
      rw [e1] at e3
      rw [← e4, ← e2, Option.some.inj e3]
    have hsub : Waiting s' i → Waiting s i := by
      rintro ⟨o, ho⟩
      have hq' : (o, i) ∈ F.P.s1.queue := by
        rw [congrArg Sim.queue F.P.res] at ho; exact ho
      exact ⟨o, (List.mem_filter.mp (F.queuePerm.subset hq')).1⟩
    refine ⟨fun hw => ?_, fun ha hbc => ?_, fun hw ha => ?_⟩
    · by_contra hcb
      refine F.released hr h0 hs ht0 (by omega) ?_ hw
      intro j d hwj
      obtain ⟨_, tj0, _, _, htj0, _⟩ := id hwj
      obtain ⟨tj, htj, ej, _⟩ := hs.static_get' hr h0 htj0
      obtain ⟨bj, hbj, hdj, hduej⟩ := htt j tj0 htj0
      have Oj := a3 j bj tj0 htj0 hbj hdj tj htj
      have hd := hdep j d hwj
      rw [Nat.add_mul] at hduej
      have hov := Oj.over hcpt (hq0 j) (a2 j tj htj) (by rw [ej]; omega)
      refine ⟨tj, htj, hov.1, hov.2, ?_⟩
      have := Oj.done hov.1 hov.2
      rw [ej, Nat.add_mul] at this
      omega
    · by_cases hcb : b ≤ c
      · have hnw : ¬ Waiting s i := fun hw => by have := O.wait hw; omega
        have hact : Active s i := by
          by_contra hna
          have hnl1 : i ∉ F.P.s1.live := by
            rw [F.live1]
            simp only [List.mem_append, not_or]
            refine ⟨hna, fun hm => hnw ?_⟩
            obtain ⟨x, hx, rfl⟩ := List.mem_map.mp hm
            exact ⟨x.1, (List.mem_filter.mp (F.actsPerm.subset hx)).1⟩
          refine hnl1 ?_
          have ha : i ∈ s'.live := ha
          rw [congrArg Sim.live F.P.res] at ha
          exact (List.mem_filter.mp ha).1
        have h1 := O.move hact hcb
        have h2 := F.advance (q := q i) hi (by omega) hact (hq0 i) (hmove c s s' hs h i hact) ha ht ht'
        have h3 : (c + cfg.cpt - b) / cfg.cpt = (c - b) / cfg.cpt + 1 := by
          rw [show c + cfg.cpt - b = c - b + cfg.cpt by omega, Nat.add_div_right _ hcpt]
        rw [h3, Nat.mul_add]
        omega
      · rw [Nat.div_eq_of_lt (by omega)]
        omega
    · by_cases hl1 : i ∈ F.P.s1.live
      · -- completed in this timestep
        have hlate : c < b + steps (q i) t.params.totalBytes * cfg.cpt := by
          by_contra hge
          have hov := O.over hcpt (hq0 i) (a2 i t ht) (by omega)
          rw [F.live1] at hl1
          rcases List.mem_append.mp hl1 with hm | hm
          · exact hov.2 hm
          · obtain ⟨x, hx, rfl⟩ := List.mem_map.mp hm
            exact hov.1 ⟨x.1, (List.mem_filter.mp (F.actsPerm.subset hx)).1⟩
        have := hend i t' ht'
        rw [hparams, Nat.add_mul]
        omega
      · have hna : ¬ Active s i := fun hm => hl1 ((F.mem_live1 i).mpr (Or.inl hm))
        obtain ⟨u, e1, e2⟩ := F.inactive ht hl1
        rw [ht'] at e1
        have e1 := Option.some.inj e1
        subst e1
        have hnw : ¬ Waiting s i := by
          rintro ⟨o, ho⟩
          cases hdue : isDue s.ts s.deps (c + cfg.cpt) (o, i) with
          | true =>
            refine hl1 ?_
            rw [F.live1]
            exact List.mem_append_right _ (List.mem_map.mpr ⟨(o, i),
              F.actsPerm.symm.subset (List.mem_filter.mpr ⟨ho, hdue⟩), rfl⟩)
          | false =>
            refine hw ⟨o, ?_⟩
            rw [congrArg Sim.queue F.P.res]
            exact F.queuePerm.symm.subset (List.mem_filter.mpr ⟨ho, by rw [hdue]; rfl⟩)
        have := O.done hnw hna
        have e3 : t'.endc = t.endc := by rw [e2]
        rw [e3, hparams]
        exact this

end NPE
