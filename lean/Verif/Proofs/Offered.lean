import Verif.Proofs.Separate

/-
The demand grids hold the offered load.
-/

namespace NPE
open Spec

theorem contrib_offered {w : TState → Nat} {c : TState → List ℚ} {sot curr : Nat} {ts : List TState} :
    ∀ (live : List Nat), (∀ i ∈ live, ∃ t, ts[i]? = some t ∧
      c t = List.replicate (w t) (share sot curr t * t.bw)) →
    (contrib c ts live).sum = offered w sot curr ts live := by
  intro live
  induction live with
  | nil => intro _; rfl
  | cons i live ih =>
    intro h
    obtain ⟨t, h1, h2⟩ := h i (by simp)
    rw [contrib_cons, List.sum_append, ih fun j hj => h j (List.mem_cons_of_mem _ hj)]
    unfold offered
    rw [List.map_cons, List.sum_cons]
    simp only [h1, h2]
    rw [List.sum_replicate, nsmul_eq_mul]

theorem forall₂_count {α : Type} {R : α → Int → Prop} {p : α → Bool} {k : Int} {l : List α} {r : List Int}
    (h : List.Forall₂ R l r) (hp : ∀ a ∈ l, ∀ b, R a b → (p a = true ↔ b = k)) : r.count k = l.countP p := by
  induction h with
  | nil => rfl
  | @cons a b l r hab _ ih =>
    rw [List.count_cons, List.countP_cons, ih fun x hx => hp x (List.mem_cons_of_mem _ hx)]
    have := hp a (by simp) b hab
    by_cases hb : b = k
    · rw [this.mpr hb]; simp [hb]
    · have : p a = false := by
        cases hpa : p a
        · rfl
        · exact absurd (this.mp hpa) hb
      rw [this]; simp [hb]

theorem niuAt_same {dev : Device} (hl : dev.nLinks ≤ 32768) {a b : Coord} {s t : NIUType} {i j : Int}
    (h1 : dev.niuAt a s = .ok i) (h2 : dev.niuAt b t = .ok j) : i = j ↔ s = t ∧ SameCore dev a b := by
  constructor
  · intro e; subst e; exact niuAt_inj hl h1 h2
  · rintro ⟨rfl, h3, h4, h5⟩
    unfold Device.niuAt at h1 h2
    have : (if dev.multichip = true then a.dev else 0) = if dev.multichip = true then b.dev else 0 := by
      split
      · exact h3 (by assumption)
      · rfl
    rw [this, h4, h5, h2] at h1
    exact (Out.ok.inj h1).symm

theorem mcastWorkers_ok {dev : Device} {gs : List CoordGrid} {ws : List Coord} (hr : ∀ g ∈ gs, RectOk g)
    (h : mcastWorkers dev gs = .ok ws) :
    ws = (gs.flatMap cells).filter fun c => dev.getCoreType c = .ok .worker := by
  unfold mcastWorkers at h
  rw [mcastCoords_eq gs hr, Out.bind_ok] at h
  obtain ⟨tys, h1, h⟩ := Out.bind_eq_ok.mp h
  rw [← Out.ok.inj h]
  rw [Out.mapM_eq_ok] at h1
  clear h
  generalize gs.flatMap cells = cs at h1 ⊢
  induction h1 with
  | nil => rfl
  | @cons c t cs ts hct _ ih =>
    rw [List.zip_cons_cons, List.filter_cons, List.filter_cons, hct]
    by_cases ht : t = .worker
    · simp only [ht, decide_true, if_true, List.map_cons, ih]
    · simp only [ht, decide_false, Out.ok.injEq, Bool.false_eq_true, if_false, ih]

theorem countP_unique {α : Type} [DecidableEq α] {l : List α} {p : α → Bool} {x : α} (hn : l.Nodup)
    (hp : ∀ a ∈ l, p a = true ↔ a = x) : l.countP p = if x ∈ l then 1 else 0 := by
  have : l.countP p = l.count x := by
    unfold List.count
    refine List.countP_congr fun a ha => ?_
    rw [hp a ha]
    simp
  rw [this]
  split
  · exact List.count_eq_one_of_mem hn (by assumption)
  · exact List.count_eq_zero_of_not_mem (by assumption)

theorem getCoreType_same {dev : Device} {a b : Coord} (h : SameCore dev a b) : dev.getCoreType a = dev.getCoreType b := by
  unfold Device.getCoreType
  rw [h.2.1, h.2.2]

/-- The sinks of a transfer, counted at one core. -/
theorem sinks_count {dev : Device} (hl : dev.nLinks ≤ 32768) {t : Transfer} {L : List Int} (hr : RectsOk t)
    (h : sinkIds dev t = .ok L) {noc : Noc} {c : Coord} {k : Int} (hk : dev.niuAt c (sinkNiu noc) = .ok k) :
    L.count k = if t.noc = noc then
      match t.dst with
      | .unicast d => if SameCore dev d c then 1 else 0
      | .mcast gs => if dev.getCoreType c = .ok .worker then gs.countP fun g => Covers dev g c else 0
      else 0 := by
  unfold sinkIds at h
  cases hd : t.dst with
  | unicast d =>
    rw [hd] at h
    simp only at h ⊢
    obtain ⟨i, h1, h⟩ := Out.bind_eq_ok.mp h
    rw [← Out.ok.inj h]
    have := niuAt_same hl h1 hk
    have hn : sinkNiu t.noc = sinkNiu noc ↔ t.noc = noc := ⟨sinkNiu_inj, fun e => by rw [e]⟩
    rw [hn] at this
    rw [List.count_singleton]
    by_cases e : i = k
    · obtain ⟨e1, e2⟩ := this.mp e
      rw [if_pos e1, if_pos e2]; simp [e]
    · by_cases e1 : t.noc = noc
      · rw [if_pos e1, if_neg (fun e2 => e (this.mpr ⟨e1, e2⟩))]; simp [e]
      · rw [if_neg e1]; simp [e]
  | mcast gs =>
    rw [hd] at h
    simp only at h ⊢
    obtain ⟨ws, h1, h⟩ := Out.bind_eq_ok.mp h
    rw [Out.mapM_eq_ok] at h
    have hrs : ∀ g ∈ gs, RectOk g := hr gs hd
    have hw := mcastWorkers_ok hrs h1
    have hn : sinkNiu t.noc = sinkNiu noc ↔ t.noc = noc := ⟨sinkNiu_inj, fun e => by rw [e]⟩
    have hc : L.count k = ws.countP fun x => decide (t.noc = noc ∧ SameCore dev x c) := by
      refine forall₂_count h fun a _ b hab => ?_
      have := niuAt_same hl hab hk
      rw [hn] at this
      rw [this]; simp
    rw [hc, hw, List.countP_filter]
    by_cases e1 : t.noc = noc
    · rw [if_pos e1]
      by_cases hty : dev.getCoreType c = .ok .worker
      · rw [if_pos hty]
        have h2 : ∀ (l : List Coord), l.countP (fun a => decide (t.noc = noc ∧ SameCore dev a c) &&
            decide (dev.getCoreType a = .ok .worker)) = l.countP fun a => decide (SameCore dev a c) := by
          intro l
          refine List.countP_congr fun a _ => ?_
          simp only [Bool.and_eq_true, decide_eq_true_eq]
          exact ⟨fun x => x.1.2, fun x => ⟨⟨e1, x⟩, by rw [getCoreType_same x]; exact hty⟩⟩
        rw [h2]
        clear * -
        induction gs with
        | nil => rfl
        | cons g gs ih =>
          rw [List.flatMap_cons, List.countP_append, ih, List.countP_cons]
          have hu : (cells g).countP (fun a => decide (SameCore dev a c)) =
              if Covers dev g c then 1 else 0 := by
            by_cases hm : dev.multichip = true → c.dev = g.lo.dev
            · rw [countP_unique (x := ⟨g.lo.dev, c.row, c.col⟩) (cells_nodup g)]
              · have : (⟨g.lo.dev, c.row, c.col⟩ : Coord) ∈ cells g ↔ Covers dev g c := by
                  rw [mem_cells]
                  exact ⟨fun x => ⟨hm, x.2⟩, fun x => ⟨rfl, x.2⟩⟩
                by_cases hcv : Covers dev g c
                · rw [if_pos hcv, if_pos (this.mpr hcv)]
                · rw [if_neg hcv, if_neg (fun x => hcv (this.mp x))]
              · intro a ha
                rw [mem_cells] at ha
                rw [decide_eq_true_eq]
                constructor
                · intro x
                  cases a
                  simp only [Coord.mk.injEq]
                  exact ⟨ha.1, x.2.1, x.2.2⟩
                · rintro rfl
                  exact ⟨fun y => (hm y).symm, rfl, rfl⟩
            · rw [if_neg (fun x => hm x.1), List.countP_eq_zero]
              intro a ha
              rw [mem_cells] at ha
              simp only [decide_eq_true_eq]
              intro x
              exact hm fun y => by rw [← x.1 y]; exact ha.1
          rw [hu]
          simp only [decide_eq_true_eq]
          omega
      · rw [if_neg hty, List.countP_eq_zero]
        intro a _
        simp only [Bool.and_eq_true, decide_eq_true_eq, not_and]
        intro x
        rw [getCoreType_same x.2]; exact hty
    · rw [if_neg e1, List.countP_eq_zero]
      intro a _
      simp [e1]

theorem loads_count_sink {dev : Device} (hl : dev.nLinks ≤ 32768) {t : TState} {L : List Int} (hr : RectsOk t.params)
    (h : loads dev t.params = .ok L) {noc : Noc} {c : Coord} {k : Int} (hk : dev.niuAt c (sinkNiu noc) = .ok k) :
    L.count k = reaches dev noc c t := by
  unfold loads at h
  obtain ⟨s, h1, h⟩ := Out.bind_eq_ok.mp h
  obtain ⟨l, h2, h⟩ := Out.bind_eq_ok.mp h
  rw [← Out.ok.inj h, List.count_cons, sinks_count hl hr h2 hk]
  have : s ≠ k := fun e => srcNiu_ne_sink _ _ ((niuAt_same hl h1 hk).mp e).1
  simp only [beq_iff_eq, this, if_false, Nat.add_zero]
  rfl

theorem loads_count_src {dev : Device} (hl : dev.nLinks ≤ 32768) {t : TState} {L : List Int}
    (h : loads dev t.params = .ok L) {noc : Noc} {c : Coord} {k : Int} (hk : dev.niuAt c (srcNiu noc) = .ok k) :
    L.count k = leaves dev noc c t := by
  unfold loads at h
  obtain ⟨s, h1, h⟩ := Out.bind_eq_ok.mp h
  obtain ⟨l, h2, h⟩ := Out.bind_eq_ok.mp h
  rw [← Out.ok.inj h, List.count_cons]
  have hz : l.count k = 0 := by
    refine List.count_eq_zero_of_not_mem fun hm => ?_
    unfold sinkIds at h2
    cases hd : t.params.dst with
    | unicast d =>
      rw [hd] at h2
      obtain ⟨i, a1, a2⟩ := Out.bind_eq_ok.mp h2
      rw [← Out.ok.inj a2, List.mem_singleton] at hm
      subst hm
      exact srcNiu_ne_sink _ _ (niuAt_inj hl hk a1).1
    | mcast gs =>
      rw [hd] at h2
      obtain ⟨ws, _, a2⟩ := Out.bind_eq_ok.mp h2
      rw [Out.mapM_eq_ok] at a2
      obtain ⟨a, _, ha⟩ := forall₂_mem_right a2 k hm
      exact srcNiu_ne_sink _ _ (niuAt_inj hl hk ha).1
  rw [hz, Nat.zero_add]
  have := niuAt_same hl h1 hk
  have hn : srcNiu t.params.noc = srcNiu noc ↔ t.params.noc = noc := ⟨srcNiu_inj, fun e => by rw [e]⟩
  rw [hn] at this
  unfold leaves
  by_cases e : s = k
  · rw [if_pos (this.mp e)]; simp [e]
  · rw [if_neg (fun x => e (this.mpr x))]; simp [e]

end NPE
