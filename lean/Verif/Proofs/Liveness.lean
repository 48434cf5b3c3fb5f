import Verif.Proofs.Waits
import Verif.Spec.Liveness

/-
Runs complete: a potential that decreases in every timestep that is not idle, and a bound for the
number of idle timesteps.
-/

namespace NPE
open NPE.Spec

theorem sum_le_of_get {f g : TState → Nat} : ∀ (l l' : List TState), l'.length = l.length →
    (∀ (i : Nat) a b, l[i]? = some a → l'[i]? = some b → g b ≤ f a) →
    (l'.map g).sum ≤ (l.map f).sum := by
  intro l
  induction l with
  | nil =>
    intro l' h _
    rw [List.length_nil, List.length_eq_zero_iff] at h
    subst h
    exact le_refl _
  | cons a l ih =>
    intro l' h hle
    cases l' with
    | nil => simp at h
    | cons b l' =>
      have h1 := hle 0 a b rfl rfl
      have h2 := ih l' (by simpa using h) (fun i => hle (i + 1))
      simp only [List.map_cons, List.sum_cons]
      omega

theorem sum_lt_of_get {f g : TState → Nat} : ∀ (l l' : List TState), l'.length = l.length →
    (∀ (i : Nat) a b, l[i]? = some a → l'[i]? = some b → g b ≤ f a) →
    (∃ (i : Nat) (a b : TState), l[i]? = some a ∧ l'[i]? = some b ∧ g b < f a) →
    (l'.map g).sum < (l.map f).sum := by
  intro l
  induction l with
  | nil =>
    rintro l' h _ ⟨i, a, b, h1, _⟩
    simp at h1
  | cons a l ih =>
    rintro l' h hle ⟨i, x, y, h1, h2, h3⟩
    cases l' with
    | nil => simp at h
    | cons b l' =>
      have h4 := hle 0 a b rfl rfl
      have h5 := sum_le_of_get (f := f) (g := g) l l' (by simpa using h) (fun i => hle (i + 1))
      simp only [List.map_cons, List.sum_cons]
      cases i with
      | zero =>
        have e1 := Option.some.inj h1
        have e2 := Option.some.inj h2
        subst e1 e2
        omega
      | succ i =>
        have := ih l' (by simpa using h) (fun i => hle (i + 1)) ⟨i, x, y, h1, h2, h3⟩
        omega

theorem steps_mono {q a b : Nat} (h : a ≤ b) : steps q a ≤ steps q b := by
  unfold steps
  exact Nat.div_le_div_right (by omega)

theorem steps_lt {q a b : Nat} (hq : 0 < q) (h : a + q ≤ b) : steps q a < steps q b := by
  unfold steps
  have : (a + q - 1) / q + 1 = (a + q - 1 + q) / q := (Nat.add_div_right _ hq).symm
  have h2 : (a + q - 1 + q) / q ≤ (b + q - 1) / q := Nat.div_le_div_right (by omega)
  omega

/-- Timesteps for the bytes still to be moved. -/
def remaining (q : Nat) (s : Sim) : Nat := (s.ts.map fun t => steps q (t.params.totalBytes - t.moved)).sum

/-- What decreases: bytes to be moved, waiting transfers (twice) and active ones. -/
def potential (q : Nat) (s : Sim) : Nat := remaining q s + 2 * s.queue.length + s.live.length

theorem StepFacts.rem_le {cfg : SimCfg} {prev curr : Nat} {s s' : Sim}
    (F : StepFacts cfg prev curr s s') (i : Nat) (a b : TState) (ha : s.ts[i]? = some a)
    (hb : s'.ts[i]? = some b) : b.params.totalBytes - b.moved ≤ a.params.totalBytes - a.moved := by
  by_cases hl : i ∈ F.P.s1.live
  · obtain ⟨t, t2, t', M⟩ := F.member hl
    have e1 := M.before
    rw [ha] at e1
    have e1 := Option.some.inj e1
    subst e1
    have e2 := M.after
    rw [hb] at e2
    have e2 := Option.some.inj e2
    subst e2
    have hp : t2.params = a.params := by rw [M.same]
    have hm : t2.moved = a.moved := by rw [M.same]
    obtain ⟨_, _, _, _, ⟨_, _, e⟩ | ⟨_, _, _, _, e⟩⟩ := M.ended
    · rw [e]; simp only; rw [hp, hm]; omega
    · rw [e]; simp only; omega
  · obtain ⟨t', h1, h2⟩ := F.inactive ha hl
    rw [hb] at h1
    have h1 := Option.some.inj h1
    subst h1
    rw [h2]

theorem StepFacts.queue_len {cfg : SimCfg} {prev curr : Nat} {s s' : Sim}
    (F : StepFacts cfg prev curr s s') : s'.queue.length + F.acts.length = s.queue.length := by
  rw [congrArg Sim.queue F.P.res]
  show F.P.s1.queue.length + _ = _
  rw [F.queuePerm.length_eq, F.actsPerm.length_eq]
  have := List.length_eq_length_filter_add (l := s.queue) (isDue s.ts s.deps curr)
  omega

theorem StepFacts.live_len {cfg : SimCfg} {prev curr : Nat} {s s' : Sim}
    (F : StepFacts cfg prev curr s s') : s'.live.length ≤ s.live.length + F.acts.length ∧
      ((∃ i ∈ F.P.s1.live, i ∉ s'.live) → s'.live.length < s.live.length + F.acts.length) := by
  have e : s.live.length + F.acts.length = F.P.s1.live.length := by
    rw [F.live1, List.length_append, List.length_map]
  have e' : s'.live = F.P.s1.live.filter fun id => !isComplete F.P.u.ts id := by
    rw [congrArg Sim.live F.P.res]
  rw [e]
  refine ⟨by rw [e']; exact List.length_filter_le _ _, ?_⟩
  rintro ⟨i, h1, h2⟩
  rw [e'] at h2 ⊢
  rw [List.length_filter_lt_length_iff_exists]
  refine ⟨i, h1, fun hc => h2 (List.mem_filter.mpr ⟨h1, hc⟩)⟩

theorem StepFacts.pot_le (q : Nat) {cfg : SimCfg} {prev curr : Nat} {s s' : Sim}
    (F : StepFacts cfg prev curr s s') : potential q s' + F.acts.length ≤ potential q s := by
  have h1 := F.queue_len
  have h2 := F.live_len.1
  have h3 : remaining q s' ≤ remaining q s := sum_le_of_get _ _ F.len fun i a b ha hb => steps_mono (F.rem_le i a b ha hb)
  unfold potential
  omega

/-- A transfer that was active before the timestep moves at least `q` bytes or completes. -/
theorem StepFacts.pot_lt {q : Nat} (hq0 : 0 < q) {cfg : SimCfg} {c : Nat} {s s' : Sim} (hi : Inv c s)
    (F : StepFacts cfg c (c + cfg.cpt) s s') (h32 : c + cfg.cpt < 4294967296)
    {i : Nat} (hl : i ∈ s.live)
    (hp : ∀ t, s'.ts[i]? = some t → (q : ℚ) ≤ cfg.fp.f32.fl (cfg.fp.f32.fl cfg.cpt * t.bw)) :
    potential q s' < potential q s := by
  have h1 := F.queue_len
  have h2 := F.live_len
  have h3 : remaining q s' ≤ remaining q s := sum_le_of_get _ _ F.len fun i a b ha hb => steps_mono (F.rem_le i a b ha hb)
  have hl1 : i ∈ F.P.s1.live := (F.mem_live1 i).mpr (Or.inl hl)
  obtain ⟨t, t2, t', M⟩ := F.member hl1
  obtain ⟨cyc, mx, hcyc, hmx, hend⟩ := M.ended
  have hq : i ∉ s.queue.map (·.2) := fun hc => (List.nodup_append.mp hi.nodup).2.2 i hc i hl rfl
  have hst : t2.start ≤ c := by
    rw [M.start.1 hl]
    exact (hi.started i t M.before hq).start_le.2
  rw [Nat.add_sub_cancel] at hcyc
  have hcc : cfg.cpt ≤ cyc := by
    rcases cyclesActive_cases hcyc (by omega) rfl h32 with h | ⟨cp, _, _, _, _, _, _, h⟩ <;> omega
  have hmv : t2.moved = t.moved := by rw [M.same]
  have hpa : t2.params = t.params := by rw [M.same]
  rcases hend with ⟨hlt, _, e⟩ | ⟨_, hn, _⟩
  · have hb := hp t' M.after
    rw [e] at hb
    simp only at hb
    have hc0 : 0 ≤ cfg.fp.f32.fl (cfg.cpt : ℚ) := cfg.fp.f32.fl_nonneg (by positivity)
    have hbw : 0 ≤ t2.bw := by
      by_contra hc
      have : cfg.fp.f32.fl (cfg.fp.f32.fl cfg.cpt * t2.bw) ≤ cfg.fp.f32.fl 0 :=
        cfg.fp.f32.mono (mul_nonpos_of_nonneg_of_nonpos hc0 (by linarith))
      rw [cfg.fp.f32.fl_zero] at this
      linarith [(Nat.cast_pos (α := ℚ)).mpr hq0]
    have hbig : (q : ℚ) ≤ cfg.fp.f32.fl (cfg.fp.f32.fl cyc * t2.bw) := by
      refine le_trans hb (cfg.fp.f32.mono (mul_le_mul_of_nonneg_right (cfg.fp.f32.mono ?_) hbw))
      exact_mod_cast hcc
    have hmx1 : q ≤ mx := by
      obtain ⟨_, _, e⟩ := toSize_ok hmx
      have : (q : ℤ) ≤ (cfg.fp.f32.fl (cfg.fp.f32.fl cyc * t2.bw)).floor := by
        rw [Rat.le_floor_iff]; exact_mod_cast hbig
      omega
    have h4 : remaining q s' < remaining q s := by
      refine sum_lt_of_get _ _ F.len (fun i a b ha hb => steps_mono (F.rem_le i a b ha hb))
        ⟨i, t, t', M.before, M.after, steps_lt hq0 ?_⟩
      rw [e]
      simp only
      rw [hpa, hmv] at *
      omega
    unfold potential
    omega
  · have := h2.2 ⟨i, hl1, hn⟩
    unfold potential
    omega

/-- End cycles after a timestep. -/
theorem StepFacts.endc_le {cfg : SimCfg} {c : Nat} {s s' : Sim}
    (F : StepFacts cfg c (c + cfg.cpt) s s')
    (hlim : c + 2 * cfg.cpt ≤ 100000000)
    {B : Nat} (hB : c + 2 * cfg.cpt + 32 ≤ B) (hs : ∀ (i : Nat) t, s.ts[i]? = some t → t.endc ≤ B)
    (i : Nat) (t : TState) (ht : s'.ts[i]? = some t) : t.endc ≤ B := by
  have hlt : i < s.ts.length := by
    rw [← F.len]; exact (List.getElem?_eq_some_iff.mp ht).1
  by_cases hl : i ∈ F.P.s1.live
  · obtain ⟨t0, t2, t', M⟩ := F.member hl
    have e := M.after
    rw [ht] at e
    have e := Option.some.inj e
    subst e
    obtain ⟨cyc, mx, h3, h4, h5⟩ := M.ended
    rw [Nat.add_sub_cancel] at h3 h5
    have hst := M.started.start_le.2
    have hcl := cyclesActive_le h3 hst rfl (by omega)
    rcases h5 with ⟨_, _, e⟩ | ⟨_, _, ee, h6, e⟩
    · have : t.endc = t0.endc := by rw [e, M.same]
      rw [this]; exact hs i t0 M.before
    · have e2 : t.endc = ee % 4294967296 := by rw [e]
      have := Nat.mod_le ee 4294967296
      have := transferEnd_near h6 h4 (min_le_right _ _) (by omega)
      omega
  · obtain ⟨t', h1, h2⟩ := F.inactive (List.getElem?_eq_getElem hlt) hl
    rw [ht] at h1
    have h1 := Option.some.inj h1
    subst h1
    have : t.endc = (s.ts[i]).endc := by rw [h2]
    rw [this]
    exact hs i _ (List.getElem?_eq_getElem hlt)

/-- In an idle timestep after all offsets some end cycle plus delay lies ahead. -/
theorem StepFacts.idle {cfg : SimCfg} {c : Nat} {s0 s s' : Sim} (hr : RatesOk cfg.rates)
    (h0 : Inv 0 s0) (hs : Reach cfg s0 c s)
    (F : StepFacts cfg c (c + cfg.cpt) s s') (hac : AcyclicWaits s0) {O D : Nat}
    (hO : ∀ t ∈ s0.ts, t.params.offset ≤ O) (hD : ∀ i j d, WaitsFor s0 i j d → d ≤ D) (hc : O ≤ c)
    (hl : s.live = []) (ha : F.acts = []) (hq : s.queue ≠ []) :
    ∃ (j : Nat) (t : TState), s.ts[j]? = some t ∧ c + cfg.cpt < t.endc + D := by
  have hi := hs.inv hr h0
  obtain ⟨x, hx⟩ := List.exists_mem_of_ne_nil _ hq
  obtain ⟨i, ⟨o, hio⟩, hmin⟩ := hac.has_min {i | Waiting s i} ⟨x.2, x.1, hx⟩
  have hlt : i < s.ts.length := hi.lt i (List.mem_append_left _ (List.mem_map_of_mem (f := (·.2)) hio))
  have ht : s.ts[i]? = some s.ts[i] := List.getElem?_eq_getElem hlt
  set t := s.ts[i] with htdef
  have hnd : isDue s.ts s.deps (c + cfg.cpt) (o, i) ≠ true := by
    intro hd
    have : (o, i) ∈ F.acts := F.actsPerm.symm.subset (List.mem_filter.mpr ⟨hio, hd⟩)
    rw [ha] at this
    simp at this
  have hoff : o ≤ c := by
    have h1 := (hi.waiting _ hio t ht).1
    obtain ⟨t0, h2, h3, _⟩ := hs.static_get hr h0 ht
    have := hO t0 (List.mem_of_getElem? h2)
    rw [h3] at this
    simp only at h1
    omega
  have hndone : s.deps.done t.dependsOn (c + cfg.cpt) ≠ .ok true := by
    intro hd
    exact hnd (isDue_iff.mpr ⟨by simp only; omega, t, ht, hd⟩)
  rcases hi.waits_cases ht with ⟨hm, _⟩ | ⟨j, d, hw, _⟩
  · exact absurd (Tracker.done_eq_ok.mpr (Or.inl ⟨hm, rfl⟩)) hndone
  · have hw0 := (hs.waitsFor_iff hr h0 i j d).mp hw
    have hd := hD i j d hw0
    have hjw : ¬ Waiting s j := fun hc => hmin j hc ⟨d, hw0⟩
    obtain ⟨ti, tj, cp, h1, h2, h3, h4, h5, h6⟩ := hw
    rw [ht] at h1
    have e := Option.some.inj h1
    subst e
    refine ⟨j, tj, h2, ?_⟩
    obtain ⟨cp', hcp', htot, _, hfin⟩ := hi.tracker j tj h2 _ h3
    rw [h5] at hcp'
    have e := Option.some.inj hcp'
    subst e
    obtain ⟨e1, e2⟩ := hfin ⟨by rw [← waiting_iff]; exact hjw, by rw [hl]; simp⟩
    by_contra hcon
    apply hndone
    refine Tracker.done_eq_ok.mpr (Or.inr ⟨by omega, cp, Tracker.get_eq_ok.mpr ⟨h4, h5⟩, ?_⟩)
    simp only [Checkpoint.done, Bool.and_eq_true, decide_eq_true_eq]
    have := Nat.mod_le (cp.endc + cp.delay) 4294967296
    refine ⟨?_, by omega⟩
    rw [e1, htot]

/-- The invariant of a run towards its end. -/
theorem Spec.Reach.over_by {q : Nat} (hq0 : 0 < q) {cfg : SimCfg} (hr : RatesOk cfg.rates) {s0 : Sim} (h0 : Inv 0 s0)
    (he0 : ∀ t ∈ s0.ts, t.endc = 0) (hac : AcyclicWaits s0) (hmove : KeepsMoving cfg s0 q) {O D : Nat}
    (hO : ∀ t ∈ s0.ts, t.params.offset ≤ O) (hD : ∀ i j d, WaitsFor s0 i j d → d ≤ D)
    {K : Nat} (hKdef : K = O + (potential q s0 + 1) * (D + 2 * cfg.cpt + 32))
    (hK : K ≤ 50000000)
    {c : Nat} {s : Sim} (hs : Reach cfg s0 c s) :
    c ≤ K ∧ ∃ f l, potential q s + f ≤ potential q s0 ∧ l ≤ c ∧
      (∀ (i : Nat) t, s.ts[i]? = some t → t.endc ≤ l + cfg.cpt + 32) ∧
      l ≤ O + cfg.cpt + f * (D + 2 * cfg.cpt + 32) ∧ (c ≤ O + cfg.cpt ∨ c ≤ l + D + cfg.cpt + 32) := by
  have key : ∀ (c f l : Nat), f ≤ potential q s0 → l ≤ O + cfg.cpt + f * (D + 2 * cfg.cpt + 32) →
      (c ≤ O + cfg.cpt ∨ c ≤ l + D + cfg.cpt + 32) → c ≤ K := by
    intro c f l h1 h2 h3
    have h4 : f * (D + 2 * cfg.cpt + 32) ≤ potential q s0 * (D + 2 * cfg.cpt + 32) := Nat.mul_le_mul_right _ h1
    rw [hKdef, Nat.add_mul]
    omega
  suffices h : ∃ f l, potential q s + f ≤ potential q s0 ∧ l ≤ c ∧
      (∀ (i : Nat) t, s.ts[i]? = some t → t.endc ≤ l + cfg.cpt + 32) ∧
      l ≤ O + cfg.cpt + f * (D + 2 * cfg.cpt + 32) ∧ (c ≤ O + cfg.cpt ∨ c ≤ l + D + cfg.cpt + 32) by
    obtain ⟨f, l, a1, a2, a3, a4, a5⟩ := h
    exact ⟨key c f l (by omega) a4 a5, f, l, a1, a2, a3, a4, a5⟩
  induction hs with
  | start =>
    refine ⟨0, 0, le_refl _, le_refl _, ?_, Nat.zero_le _, Or.inl (Nat.zero_le _)⟩
    intro i t ht
    rw [he0 t (List.mem_of_getElem? ht)]
    exact Nat.zero_le _
  | @step c s s' hs hcond h ih =>
    obtain ⟨f, l, a1, a2, a3, a4, a5⟩ := ih
    have hcK := key c f l (by omega) a4 a5
    have h2K : 2 * cfg.cpt ≤ K := by
      rw [hKdef, Nat.add_mul]
      omega
    have hi := hs.inv hr h0
    obtain ⟨F⟩ := step_facts hr (Nat.le_add_right _ _) hi h
    have hend := F.endc_le (by omega) (B := (c + cfg.cpt) + cfg.cpt + 32) (by omega)
      (fun i t ht => le_trans (a3 i t ht) (by omega))
    have hpot := F.pot_le q
    by_cases hcO : c ≤ O
    · exact ⟨f, c + cfg.cpt, by omega, le_refl _, hend, by omega, Or.inl (by omega)⟩
    · by_cases hdec : potential q s' < potential q s
      · refine ⟨f + 1, c + cfg.cpt, by omega, le_refl _, hend, ?_, Or.inr (by omega)⟩
        rw [Nat.add_mul]
        omega
      · have ha : F.acts = [] := List.eq_nil_of_length_eq_zero (by omega)
        have hl : s.live = [] := by
          by_contra hne
          obtain ⟨i, hi'⟩ := List.exists_mem_of_ne_nil _ hne
          exact hdec (F.pot_lt hq0 hi (by omega) hi' (hmove c s s' hs h i hi'))
        have hq : s.queue ≠ [] := by
          rcases hcond with h | ⟨_, h⟩
          · omega
          · exact fun hq => h ⟨hl, hq⟩
        obtain ⟨j, t, hj, hlt⟩ := F.idle hr h0 hs hac hO hD (by omega) hl ha hq
        have := a3 j t hj
        refine ⟨f, l, by omega, by omega, ?_, a4, Or.inr (by omega)⟩
        intro i t ht
        have hnl : i ∉ F.P.s1.live := by rw [F.live1, hl, ha]; simp
        have hlt : i < s.ts.length := by
          rw [← F.len]; exact (List.getElem?_eq_some_iff.mp ht).1
        obtain ⟨t', h1, h2⟩ := F.inactive (List.getElem?_eq_getElem hlt) hnl
        rw [ht] at h1
        have h1 := Option.some.inj h1
        subst h1
        have : t.endc = (s.ts[i]).endc := by rw [h2]
        rw [this]
        exact a3 i _ (List.getElem?_eq_getElem hlt)

end NPE
