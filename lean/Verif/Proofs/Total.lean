import Verif.Proofs.Finish

/-
Conditions under which a timestep, and with it a whole run, succeeds.
-/

namespace NPE
open Spec (Reach DeviceOk)

theorem Out.mapM_total {α β : Type} {f : α → Out β} {l : List α} (h : ∀ a ∈ l, ∃ b, f a = .ok b) :
    ∃ r, Out.mapM f l = .ok r := by
  induction l with
  | nil => exact ⟨[], rfl⟩
  | cons a l ih =>
    obtain ⟨b, hb⟩ := h a (by simp)
    obtain ⟨r, hr⟩ := ih fun x hx => h x (List.mem_cons_of_mem _ hx)
    exact ⟨b :: r, by rw [Out.mapM_cons, hb, Out.bind_ok, hr]; rfl⟩

/-! ### Activation -/

theorem swap_total {α : Type} {l : List α} {i j : Nat} (hi : i < l.length) (hj : j < l.length) :
    ∃ l', swap l i j = .ok l' ∧ l'.length = l.length ∧ ∀ x ∈ l', x ∈ l := by
  refine ⟨(l.set i l[j]).set j l[i], ?_, by simp, ?_⟩
  · simp [swap, List.getElem?_eq_getElem hi, List.getElem?_eq_getElem hj]
  · intro x hx
    rcases List.mem_or_eq_of_mem_set hx with hx | rfl
    · rcases List.mem_or_eq_of_mem_set hx with hx | rfl
      · exact hx
      · exact List.getElem_mem _
    · exact List.getElem_mem _

/-- The checkpoint that a transfer depends on exists. -/
def HasDep (deps : Tracker) (t : TState) : Prop := t.dependsOn = -1 ∨ ∃ cp, deps.get t.dependsOn = .ok cp

theorem HasDep.done {deps : Tracker} {t : TState} (h : HasDep deps t) (c : Nat) :
    ∃ d, deps.done t.dependsOn c = .ok d := by
  rcases h with h | ⟨cp, h⟩
  · exact ⟨true, Tracker.done_eq_ok.mpr (Or.inl ⟨h, rfl⟩)⟩
  · by_cases h1 : t.dependsOn = -1
    · exact ⟨true, Tracker.done_eq_ok.mpr (Or.inl ⟨h1, rfl⟩)⟩
    · exact ⟨_, Tracker.done_eq_ok.mpr (Or.inr ⟨h1, cp, h, rfl⟩)⟩

theorem HasDep.start {deps : Tracker} {t : TState} (h : HasDep deps t) :
    ∃ d, startAfterDep deps t = .ok d := by
  unfold startAfterDep
  split
  · rename_i h1
    rcases h with h | ⟨cp, h⟩
    · simp [Tracker.defined, Tracker.UNDEFINED, h] at h1
    · unfold Tracker.endCyclePlusDelay
      rw [if_pos h1, h]
      exact ⟨_, rfl⟩
  · exact ⟨_, rfl⟩

theorem scanGo_total {deps : Tracker} {curr : Nat} : ∀ (n : Nat) (s : Scan), n ≤ s.queue.length →
    (∀ x ∈ s.queue, ∃ t, s.ts[x.2]? = some t ∧ HasDep deps t) → ∃ r, scanGo deps curr n s = .ok r := by
  intro n
  induction n with
  | zero => intro s _ _; exact ⟨s, rfl⟩
  | succ n ih =>
    intro s hn h
    unfold scanGo
    have hlt : n < s.queue.length := hn
    rw [List.getElem?_eq_getElem hlt]
    simp only
    split
    · obtain ⟨t, ht, hd⟩ := h _ (List.getElem_mem hlt)
      rw [ht]
      simp only
      obtain ⟨d, hdone⟩ := hd.done curr
      rw [hdone, Out.bind_ok]
      split
      · obtain ⟨st, hst⟩ := hd.start
        obtain ⟨q, hq, hl, hsub⟩ := swap_total (l := s.queue) (i := s.queue.length - 1 - s.activated)
          (j := n) (by omega) hlt
        rw [hst, Out.bind_ok, hq, Out.bind_ok]
        refine ih _ (by simp only [hl]; omega) ?_
        intro x hx
        obtain ⟨t1, ht1, hd1⟩ := h x (hsub x hx)
        simp only
        by_cases he : x.2 = s.queue[n].2
        · rw [he] at ht1 ⊢
          rw [ht] at ht1
          have e := Option.some.inj ht1
          subst e
          have hl2 := (List.getElem?_eq_some_iff.mp ht).1
          exact ⟨_, List.getElem?_set_self hl2, hd1⟩
        · exact ⟨t1, by rw [List.getElem?_set_ne (Ne.symm he)]; exact ht1, hd1⟩
      · exact ih s (by omega) h
    · exact ⟨s, rfl⟩

theorem activate_total {curr : Nat} {s : Sim}
    (h : ∀ x ∈ s.queue, ∃ t, s.ts[x.2]? = some t ∧ HasDep s.deps t) : ∃ s', activate curr s = .ok s' := by
  unfold activate
  obtain ⟨r, hr⟩ := scanGo_total (deps := s.deps) (curr := curr) s.queue.length
    { ts := s.ts, queue := s.queue, live := s.live, activated := 0 } le_rfl h
  rw [hr]
  exact ⟨_, rfl⟩

theorem Inv.hasDep {prev : Nat} {s : Sim} (hi : Inv prev s) {i : Nat} {t : TState}
    (ht : s.ts[i]? = some t) : HasDep s.deps t := by
  by_cases h : t.dependsOn = -1
  · exact Or.inl h
  · obtain ⟨p, tp, hp, hj⟩ := hi.covered i t ht h
    obtain ⟨cp, hcp, _⟩ := hi.tracker p tp hp _ hj
    exact Or.inr ⟨cp, Tracker.get_eq_ok.mpr ⟨hi.rbValid p tp hp _ hj, hcp⟩⟩

/-! ### Updating one transfer -/

theorem cyclesActive_total {cpt curr : Nat} {t : TState} {deps : Tracker} (hd : HasDep deps t)
    (hc : cpt ≤ curr) (h32 : curr < 4294967296) (hsmall : cpt ≤ curr - cpt → 2 * cpt < 4294967296) :
    ∃ c, cyclesActive cpt curr (curr - cpt) t deps = .ok c ∧ c < 4294967296 := by
  have hp : min cpt (toU32 ((curr : Int) - t.start)) < 4294967296 := by omega
  unfold cyclesActive
  simp only
  split
  · rename_i h1
    rcases hd with h | ⟨cp, h⟩
    · simp [Tracker.defined, Tracker.UNDEFINED, h] at h1
    · unfold Tracker.endCycle
      rw [if_pos h1, h, Out.bind_ok, Out.bind_ok]
      split
      · rename_i h2
        obtain ⟨h3, h4, h5, h6⟩ := h2
        have hm : max t.start cp.endc < curr - cpt := by omega
        have hm2 : curr - cpt - cpt ≤ max t.start cp.endc := by omega
        have e : toU32 ((curr : Int) - (max t.start cp.endc : Nat)) = curr - max t.start cp.endc := by
          unfold toU32
          omega
        have hsm := hsmall h4
        rw [e]
        refine ⟨curr - max t.start cp.endc, ?_, by omega⟩
        rw [Out.assert, if_pos (by simp; omega), Out.bind_ok, Out.assert, if_pos (by simp; omega), Out.bind_ok]
        rfl
      · exact ⟨_, rfl, hp⟩
  · exact ⟨_, rfl, hp⟩

theorem toSize_total {x : ℚ} (h0 : 0 ≤ x) (h : x < 18446744073709551616) :
    ∃ n, toSize x = .ok n ∧ (n : ℚ) ≤ x := by
  refine ⟨x.floor.toNat, ?_, ?_⟩
  · unfold toSize
    rw [if_pos ⟨by linarith, h⟩]
  · have h1 : 0 ≤ x.floor := Int.floor_nonneg.mpr h0
    have h2 : ((x.floor.toNat : Nat) : Int) = x.floor := Int.toNat_of_nonneg h1
    have h3 : ((x.floor.toNat : Nat) : ℚ) = (x.floor : ℚ) := by exact_mod_cast h2
    rw [h3]
    exact Int.floor_le x

/-- The bandwidth bound under which all conversions are defined. -/
def bwLimit : ℚ := 1048576

theorem maxBytes_total (fp : FP) {c : Nat} {bw : ℚ} (hc : c < 4294967296) (h0 : 0 ≤ bw) (hb : bw ≤ bwLimit) :
    ∃ n, toSize (fp.f32.fl (fp.f32.fl c * bw)) = .ok n ∧ (n : ℚ) ≤ c * bw * (1 + 1 / 16777216) ^ 2 := by
  have hc' : (c : ℚ) < 4294967296 := by exact_mod_cast hc
  have h1 : (0 : ℚ) ≤ c := Nat.cast_nonneg c
  have a1 := fp.f32.fl_le_err h1
  have a0 := fp.f32.fl_nonneg h1
  have b0 : 0 ≤ fp.f32.fl c * bw := mul_nonneg a0 h0
  have b1 := fp.f32.fl_le_err b0
  have b2 := fp.f32.fl_nonneg b0
  have key : fp.f32.fl (fp.f32.fl c * bw) ≤ c * bw * (1 + 1 / 16777216) ^ 2 := by
    refine le_trans b1 ?_
    have : fp.f32.fl c * bw ≤ c * (1 + 1 / 16777216) * bw := mul_le_mul_of_nonneg_right a1 h0
    nlinarith
  have hlt : c * bw * (1 + 1 / 16777216) ^ 2 < (18446744073709551616 : ℚ) := by
    have : (c : ℚ) * bw ≤ 4294967296 * 1048576 := by
      unfold bwLimit at hb
      exact mul_le_mul hc'.le hb h0 (by norm_num)
    nlinarith
  obtain ⟨n, hn, hle⟩ := toSize_total b2 (lt_of_le_of_lt key hlt)
  exact ⟨n, hn, le_trans hle key⟩

theorem transferEnd_total (fp : FP) {sot : Nat} {t : TState} {bytes c : Nat} (hb : 0 < t.bw)
    (hs : max t.start sot < 4294967296) (hc : c < 4294967296)
    (hle : (bytes : ℚ) ≤ c * t.bw * (1 + 1 / 16777216) ^ 2) :
    ∃ e, transferEnd fp sot t bytes = .ok e := by
  unfold transferEnd
  simp only
  rw [if_neg (ne_of_gt hb)]
  have hc' : (c : ℚ) < 4294967296 := by exact_mod_cast hc
  have hc0 : (0 : ℚ) ≤ c := Nat.cast_nonneg c
  have n0 : (0 : ℚ) ≤ bytes := Nat.cast_nonneg bytes
  have a1 := fp.f32.fl_le_err n0
  have a0 := fp.f32.fl_nonneg n0
  have q0 : 0 ≤ fp.f32.fl bytes / t.bw := div_nonneg a0 hb.le
  have q1 : fp.f32.fl bytes / t.bw ≤ c * (1 + 1 / 16777216) ^ 3 := by
    rw [div_le_iff₀ hb]
    have := mul_le_mul_of_nonneg_right hle (by norm_num : (0 : ℚ) ≤ 1 + 1 / 16777216)
    nlinarith
  have r0 := fp.f32.fl_nonneg q0
  have r1 := fp.f32.fl_le_err q0
  have r2 : fp.f32.fl (fp.f32.fl bytes / t.bw) ≤ 8589934592 := by nlinarith
  have k0 : (0 : ℚ) ≤ ((fp.f32.fl (fp.f32.fl bytes / t.bw)).ceil : ℚ) := by
    exact le_trans r0 (Rat.ceil_le_iff.mp (le_refl _))
  have k1 : ((fp.f32.fl (fp.f32.fl bytes / t.bw)).ceil : ℚ) ≤ 8589934592 := by
    have : (fp.f32.fl (fp.f32.fl bytes / t.bw)).ceil ≤ (8589934592 : Int) := by
      rw [Rat.ceil_le_iff]
      exact_mod_cast r2
    exact_mod_cast this
  have m0 : (0 : ℚ) ≤ ((max t.start sot : Nat) : ℚ) := Nat.cast_nonneg _
  have m1 : ((max t.start sot : Nat) : ℚ) ≤ 4294967296 := by exact_mod_cast hs.le
  have s0 := fp.f32.fl_nonneg m0
  have s1 := fp.f32.fl_le_err m0
  have z0 : 0 ≤ fp.f32.fl ((max t.start sot : Nat) : ℚ) +
      ((fp.f32.fl (fp.f32.fl bytes / t.bw)).ceil : ℚ) := by linarith
  have z1 := fp.f32.fl_le_err z0
  obtain ⟨n, hn, _⟩ := toSize_total (fp.f32.fl_nonneg z0) (lt_of_le_of_lt z1 (by nlinarith))
  exact ⟨n, hn⟩

theorem foldlM_update_total {e : Nat} : ∀ (l : List Int) (tk : Tracker),
    (∀ j ∈ l, 0 ≤ j ∧ j.toNat < tk.length) →
    ∃ tk', Out.foldlM (fun tk c => Tracker.update tk c e) tk l = .ok tk' := by
  intro l
  induction l with
  | nil => intro tk _; exact ⟨tk, rfl⟩
  | cons j l ih =>
    intro tk h
    obtain ⟨h0, hlt⟩ := h j (by simp)
    have hu : ∃ tk1, Tracker.update tk j e = .ok tk1 ∧ tk1.length = tk.length := by
      unfold Tracker.update
      split
      · rw [Tracker.get_eq_ok.mpr ⟨h0, List.getElem?_eq_getElem hlt⟩, Out.bind_ok]
        exact ⟨_, rfl, by simp⟩
      · exact ⟨_, rfl, rfl⟩
    obtain ⟨tk1, hu, hl⟩ := hu
    obtain ⟨tk', hk⟩ := ih tk1 fun x hx => by rw [hl]; exact h x (List.mem_cons_of_mem _ hx)
    exact ⟨tk', by rw [Out.foldlM_cons, hu, Out.bind_ok]; exact hk⟩

/-- A live transfer that can be updated without error. -/
structure Updatable (golden : GoldenMap) (t : TState) : Prop where
  nonneg : 0 ≤ t.bw
  bound : t.bw ≤ bwLimit
  pos : t.moved < t.params.totalBytes ∨ 0 < t.bw
  golden : ∃ g, golden.at t.params.src.dev = .ok g

theorem updateOne_total {cfg : SimCfg} {curr : Nat} {s : Sim} {st : Stats} {id : Nat} (hi : Inv curr s)
    (hid : id ∈ s.live) (hc : cfg.cpt ≤ curr) (hpos : 0 < cfg.cpt) (h32 : curr < 4294967296)
    (hsmall : cfg.cpt ≤ curr - cfg.cpt → 2 * cfg.cpt < 4294967296)
    (hmesh : ∃ g, cfg.golden.at MESH_DEVICE = .ok g)
    (h : ∀ t, s.ts[id]? = some t → Updatable cfg.golden t) :
    ∃ u', updateOne cfg curr (curr - cfg.cpt) { ts := s.ts, deps := s.deps, stats := st } id = .ok u' := by
  have hlt : id < s.ts.length := hi.lt id (List.mem_append_right _ hid)
  have hq : id ∉ s.queue.map (·.2) := fun hm => (List.nodup_append.mp hi.nodup).2.2 _ hm _ hid rfl
  obtain ⟨t, ht⟩ : ∃ t, s.ts[id]? = some t := ⟨_, List.getElem?_eq_getElem hlt⟩
  have hU := h t ht
  obtain ⟨hoff, hdone, hstart⟩ := hi.started id t ht hq
  have hd := hi.hasDep ht
  obtain ⟨c, hcyc, hc32⟩ := cyclesActive_total hd hc h32 hsmall
  obtain ⟨mx, hmx, hmxle⟩ := maxBytes_total cfg.fp hc32 hU.nonneg hU.bound
  have hst : t.start ≤ curr := by
    rw [hstart]
    unfold actStart
    simp only
    rcases Tracker.done_eq_ok.mp hdone with ⟨h1, _⟩ | ⟨h1, cp, hcp, hdn⟩
    · rw [h1]
      have : s.deps.get (-1) = .exc .undef := by unfold Tracker.get; simp
      rw [this]
      exact hoff
    · rw [hcp]
      simp only [Checkpoint.done, Bool.and_eq_true, decide_eq_true_eq] at hdn
      simp only
      omega
  unfold updateOne
  simp only [ht]
  rw [hdone, Out.bind_ok, Out.assert, if_pos rfl, Out.bind_ok, hcyc, Out.bind_ok, hmx, Out.bind_ok]
  split
  · rename_i heq
    have hle := hi.le id t ht
    have hbw : 0 < t.bw := by
      rcases hU.pos with h1 | h1
      · rcases lt_or_eq_of_le hU.nonneg with h2 | h2
        · exact h2
        · exfalso
          rw [← h2] at hmxle
          have : (mx : ℚ) ≤ 0 := by linarith
          have : mx = 0 := by exact_mod_cast le_antisymm this (Nat.cast_nonneg mx)
          rw [this] at heq
          simp at heq
          omega
      · exact h1
    have hb : ((min (t.params.totalBytes - t.moved) mx : Nat) : ℚ) ≤ c * t.bw * (1 + 1 / 16777216) ^ 2 :=
      le_trans (by exact_mod_cast min_le_right _ _) hmxle
    obtain ⟨e, he⟩ := transferEnd_total cfg.fp (sot := curr - cfg.cpt)
      (t := { t with moved := t.moved + min (t.params.totalBytes - t.moved) mx }) hbw
      (by simp only; omega) hc32 hb
    obtain ⟨g, hg⟩ := hU.golden
    obtain ⟨gm, hgm⟩ := hmesh
    obtain ⟨tk, htk⟩ := foldlM_update_total (e := e % 4294967296) t.requiredBy s.deps (fun j hj => by
      obtain ⟨cp, hcp, _⟩ := hi.tracker id t ht j hj
      exact ⟨hi.rbValid id t ht j hj, (List.getElem?_eq_some_iff.mp hcp).1⟩)
    unfold completeOne
    rw [he, Out.bind_ok]
    simp only
    rw [htk, Out.bind_ok, hg, Out.bind_ok, hgm, Out.bind_ok]
    exact ⟨_, rfl⟩
  · exact ⟨_, rfl⟩

theorem foldUpd_total {cfg : SimCfg} {curr : Nat} (hc : cfg.cpt ≤ curr) (hpos : 0 < cfg.cpt)
    (h32 : curr < 4294967296) (hsmall : cfg.cpt ≤ curr - cfg.cpt → 2 * cfg.cpt < 4294967296)
    (hmesh : ∃ g, cfg.golden.at MESH_DEVICE = .ok g) : ∀ (l : List Nat) (s : Sim) (st : Stats),
    Inv curr s → l.Nodup → (∀ i ∈ l, i ∈ s.live) →
    (∀ i ∈ l, ∀ t, s.ts[i]? = some t → Updatable cfg.golden t) →
    ∃ u', Out.foldlM (updateOne cfg curr (curr - cfg.cpt)) { ts := s.ts, deps := s.deps, stats := st } l =
      .ok u' := by
  intro l
  induction l with
  | nil => intro s st _ _ _ _; exact ⟨_, rfl⟩
  | cons i l ih =>
    intro s st hi hn hlive hu
    obtain ⟨u, h1⟩ := updateOne_total (st := st) hi (hlive i (by simp)) hc hpos h32 hsmall hmesh
      (hu i (by simp))
    rw [Out.foldlM_cons, h1, Out.bind_ok]
    have hi' := upd_inv hi (hlive i (by simp)) h1
    have hne : ∀ j ∈ l, j ≠ i := fun j hj he => by
      rw [he] at hj
      exact (List.nodup_cons.mp hn).1 hj
    have hts : ∀ j ∈ l, u.ts[j]? = s.ts[j]? := by
      intro j hj
      have := (foldUpd_other [i] { ts := s.ts, deps := s.deps, stats := st } u
        (by rw [Out.foldlM_cons, h1, Out.bind_ok]; rfl)).2 j (by simpa using hne j hj)
      exact this
    refine ih _ u.stats hi' (List.nodup_cons.mp hn).2 ?_ ?_
    · intro j hj
      have hjl := hlive j (List.mem_cons_of_mem _ hj)
      simp only
      split
      · exact List.mem_filter.mpr ⟨hjl, by simpa using hne j hj⟩
      · exact hjl
    · intro j hj t ht
      rw [show _ = s.ts[j]? from hts j hj] at ht
      exact hu j (List.mem_cons_of_mem _ hj) t ht

/-! ### One timestep -/

theorem updateSim_total {dev : Device} (hd : DeviceOk dev) {g : Grids} (hg : Sized dev g) (live : List Nat)
    (st : Stats) : ∃ st', st.updateSim dev g live = .ok st' := by
  unfold Stats.updateSim
  have hl : dev.linkTable.length ≤ 32768 := by rw [dev.linkTable_length]; exact hd.ids
  have hl' : dev.niuTable.length ≤ 32768 := by rw [dev.niuTable_length]; exact hd.ids
  have h16 : ∀ i : Nat, i < 32768 → toI16 i = i := by
    intro i hi
    simp only [toI16]
    split <;> omega
  obtain ⟨la, h1⟩ := Out.mapM_total (f := fun (i : Nat) => dev.getLinkAttributes (toI16 i))
    (l := List.range g.link.length) (by
      intro i hi
      have hlt : i < dev.linkTable.length := by rw [← hg.2.1]; exact List.mem_range.mp hi
      unfold Device.getLinkAttributes
      rw [h16 i (by omega), if_neg (by omega), Int.toNat_natCast, List.getElem?_eq_getElem hlt]
      exact ⟨_, rfl⟩)
  obtain ⟨na, h2⟩ := Out.mapM_total (f := fun (i : Nat) => dev.getNIUAttributes (toI16 i))
    (l := List.range g.niu.length) (by
      intro i hi
      have hlt : i < dev.niuTable.length := by rw [← hg.1]; exact List.mem_range.mp hi
      unfold Device.getNIUAttributes
      rw [h16 i (by omega), if_neg (by omega), Int.toNat_natCast, List.getElem?_eq_getElem hlt]
      exact ⟨_, rfl⟩)
  rw [h1, Out.bind_ok, h2, Out.bind_ok]
  exact ⟨_, rfl⟩

theorem insertTimestep_total {golden : GoldenMap} {st : Stats} (h : ∀ e ∈ st, ∃ g, golden.at e.1 = .ok g)
    (a b : Nat) : ∃ st', st.insertTimestep golden a b = .ok st' := by
  unfold Stats.insertTimestep
  refine Out.mapM_total fun e he => ?_
  obtain ⟨g, hg⟩ := h e he
  unfold Stats.insertOne
  rw [hg, Out.bind_ok]
  split <;> exact ⟨_, rfl⟩

/-- A rate computation that succeeds on the transfers with property `P`, with sane results. -/
def RatesTotal (r : Rates) (dev : Device) (golden : GoldenMap) (P : TState → Prop) : Prop :=
  ∀ sot curr g ts live, sot < curr → curr < 4294967296 → live.Nodup → Sized dev g →
    (∀ i ∈ live, ∃ t, ts[i]? = some t ∧ P t ∧ t.start ≤ curr) →
    ∃ ts' g', r sot curr g ts live = .ok (ts', g') ∧ Sized dev g' ∧
      ∀ i ∈ live, ∀ t', ts'[i]? = some t' →
        (t'.moved < t'.params.totalBytes ∨ t'.params.totalBytes = 0) → Updatable golden t'

theorem step_total {cfg : SimCfg} (hd : DeviceOk cfg.dev) {P : TState → Prop} (hr : RatesOk cfg.rates)
    (hrt : RatesTotal cfg.rates cfg.dev cfg.golden P)
    (hP : ∀ t t' : TState, stat t' = stat t → P t → P t') {c : Nat} {s : Sim} (hi : Inv c s)
    (hpos : 0 < cfg.cpt) (h32 : c + cfg.cpt < 4294967296) (hsmall : 0 < c → 2 * cfg.cpt < 4294967296)
    (hmesh : ∃ g, cfg.golden.at MESH_DEVICE = .ok g)
    (hst : ∀ e ∈ s.stats, ∃ g, cfg.golden.at e.1 = .ok g) (hsz : Sized cfg.dev s.grids)
    (hts : ∀ t ∈ s.ts, P t) (hlive : ∀ i ∈ s.live, ∀ t, s.ts[i]? = some t → t.moved < t.params.totalBytes) :
    ∃ s', stepSim cfg (c + cfg.cpt) s = .ok s' ∧ Sized cfg.dev s'.grids := by
  unfold stepSim
  simp only
  obtain ⟨st0, h0⟩ := insertTimestep_total hst (c + cfg.cpt - cfg.cpt) (c + cfg.cpt)
  rw [h0, Out.bind_ok]
  have hi0 : Inv c { s with stats := st0 } := hi.setStats s.grids st0
  obtain ⟨s1, h1⟩ := activate_total (curr := c + cfg.cpt) (s := { s with stats := st0 }) (by
    intro x hx
    have hlt : x.2 < s.ts.length := hi.lt _ (List.mem_append_left _ (List.mem_map_of_mem hx))
    exact ⟨_, List.getElem?_eq_getElem hlt, hi.hasDep (List.getElem?_eq_getElem hlt)⟩)
  rw [h1, Out.bind_ok]
  obtain ⟨hi1, acts, ha, hq, hs1⟩ := activate_inv hi0 (Nat.le_add_right c cfg.cpt) h1
  have hndq : (acts.map (·.2)).Nodup := by
    have hnd := (List.nodup_append.mp hi.nodup).1
    have : (acts.map (·.2)).Perm ((s.queue.filter (isDue s.ts s.deps (c + cfg.cpt))).map (·.2)) := ha.map _
    exact this.nodup_iff.mpr (hnd.sublist (List.filter_sublist.map _))
  have ets : s1.ts = updIds (actT s.deps) (acts.map (·.2)) s.ts := by
    rw [hs1]
  have elive : s1.live = s.live ++ acts.map (·.2) := by
    rw [hs1]
  have egrids : s1.grids = s.grids := by
    rw [hs1]
  have back : ∀ (i : Nat) t1, s1.ts[i]? = some t1 → ∃ t, s.ts[i]? = some t ∧ stat t1 = stat t ∧
      t1.moved = t.moved := by
    intro i t1 h
    rw [ets, updIds_getElem? _ _ _ hndq] at h
    split at h
    · obtain ⟨t, ht, he⟩ := Option.map_eq_some_iff.mp h
      exact ⟨t, ht, by rw [← he]; rfl, by rw [← he]; rfl⟩
    · exact ⟨t1, h, rfl, rfl⟩
  have hnd1 : s1.live.Nodup := (List.nodup_append.mp hi1.nodup).2.1
  obtain ⟨ts2, g2, h2, hsz2, hU⟩ := hrt (c + cfg.cpt - cfg.cpt) (c + cfg.cpt) s1.grids s1.ts s1.live (by omega)
    h32 hnd1 (by rw [egrids]; exact hsz) (by
      intro i hi'
      have hlt : i < s1.ts.length := hi1.lt i (List.mem_append_right _ hi')
      obtain ⟨t, ht, hs, _⟩ := back i _ (List.getElem?_eq_getElem hlt)
      refine ⟨_, List.getElem?_eq_getElem hlt, hP t _ hs (hts t (List.mem_of_getElem? ht)), ?_⟩
      have hq : i ∉ s1.queue.map (·.2) := fun hm => (List.nodup_append.mp hi1.nodup).2.2 _ hm _ hi' rfl
      obtain ⟨hoff, hdone, hstart⟩ := hi1.started i _ (List.getElem?_eq_getElem hlt) hq
      rw [hstart]
      unfold actStart
      simp only
      rcases Tracker.done_eq_ok.mp hdone with ⟨h1, _⟩ | ⟨h1, cp, hcp, hdn⟩
      · rw [h1]
        have : s1.deps.get (-1) = .exc .undef := by unfold Tracker.get; simp
        rw [this]
        exact hoff
      · rw [hcp]
        simp only [Checkpoint.done, Bool.and_eq_true, decide_eq_true_eq] at hdn
        simp only
        omega)
  rw [h2, Out.bind_ok]
  simp only
  obtain ⟨st2, h3⟩ := updateSim_total hd hsz2 s1.live s1.stats
  rw [h3, Out.bind_ok]
  obtain ⟨hl2, ho2⟩ := hr _ _ _ _ _ _ _ h2
  have hi2 := hi1.change hl2 ho2 g2 st2
  obtain ⟨u, h4⟩ := foldUpd_total (cfg := cfg) (curr := c + cfg.cpt) (by omega) hpos h32
    (fun h => hsmall (by omega)) hmesh s1.live { s1 with ts := ts2, grids := g2, stats := st2 } st2 hi2 hnd1
    (fun i h => h) (by
      intro i hil t2 ht2
      refine hU i hil t2 ht2 ?_
      have hlt : i < s1.ts.length := hi1.lt i (List.mem_append_right _ hil)
      have e2 := ho2 i _ t2 (List.getElem?_eq_getElem hlt) ht2
      obtain ⟨t, ht, hs, hm⟩ := back i _ (List.getElem?_eq_getElem hlt)
      have ep : t2.params = t.params := by
        rw [e2]
        have := congrArg (·.1) hs
        exact this
      have em : t2.moved = t.moved := by rw [e2]; exact hm
      rw [ep, em]
      rw [elive, List.mem_append] at hil
      rcases hil with hil | hil
      · exact Or.inl (hlive i hil t ht)
      · obtain ⟨x, hx, rfl⟩ := List.mem_map.mp hil
        have hxq : x ∈ s.queue := (List.mem_filter.mp (ha.subset hx)).1
        have := (hi.waiting x hxq t ht).2.2
        omega)
  simp only at h4
  rw [h4, Out.bind_ok]
  exact ⟨_, rfl, hsz2⟩

end NPE
