import Verif.Proofs.Independent
import Verif.Proofs.Multicast

/-
Which network interfaces and links a transfer uses.
-/

namespace NPE
open Spec

theorem getNIUID_ok {dev : Device} (hl : dev.nLinks ≤ 32768) {a : NIUAttr} {i : Int}
    (h : dev.getNIUID a = .ok i) : dev.On a.coord ∧ i = dev.niuIdx a := by
  by_cases ho : dev.On a.coord
  · rw [dev.getNIUID_eq hl a ho] at h
    exact ⟨ho, (Out.ok.inj h).symm⟩
  · rw [dev.getNIUID_off hl a ho] at h; simp at h

theorem getLinkID_ok {dev : Device} (hl : dev.nLinks ≤ 32768) {a : LinkAttr} {i : Int}
    (h : dev.getLinkID a = .ok i) : dev.On a.coord ∧ i = dev.linkIdx a := by
  by_cases ho : dev.On a.coord
  · rw [dev.getLinkID_eq hl a ho] at h
    exact ⟨ho, (Out.ok.inj h).symm⟩
  · rw [dev.getLinkID_off hl a ho] at h; simp at h

theorem niuAt_inj {dev : Device} (hl : dev.nLinks ≤ 32768) {a b : Coord} {s t : NIUType} {i : Int}
    (h1 : dev.niuAt a s = .ok i) (h2 : dev.niuAt b t = .ok i) : s = t ∧ SameCore dev a b := by
  unfold Device.niuAt at h1 h2
  obtain ⟨o1, e1⟩ := getNIUID_ok hl h1
  obtain ⟨o2, e2⟩ := getNIUID_ok hl h2
  have h := dev.niuIdx_inj o1 o2 (by rw [e1] at e2; exact_mod_cast e2)
  simp only [NIUAttr.mk.injEq, Coord.mk.injEq] at h
  refine ⟨h.2, ?_, h.1.2.1, h.1.2.2⟩
  intro hm
  have := h.1.1
  simpa [hm] using this

theorem srcNiu_ne_sink (a b : Noc) : srcNiu a ≠ sinkNiu b := by cases a <;> cases b <;> simp [srcNiu, sinkNiu]

theorem srcNiu_inj {a b : Noc} (h : srcNiu a = srcNiu b) : a = b := by
  cases a <;> cases b <;> simp [srcNiu] at h ⊢

theorem sinkNiu_inj {a b : Noc} (h : sinkNiu a = sinkNiu b) : a = b := by
  cases a <;> cases b <;> simp [sinkNiu] at h ⊢

theorem forall₂_mem_right {α β : Type} {R : α → β → Prop} : ∀ {l : List α} {r : List β},
    List.Forall₂ R l r → ∀ b ∈ r, ∃ a ∈ l, R a b := by
  intro l r h
  induction h with
  | nil => simp
  | cons h _ ih =>
    intro b hb
    rcases List.mem_cons.mp hb with rfl | hb
    · exact ⟨_, by simp, h⟩
    · obtain ⟨a, ha, hr⟩ := ih b hb
      exact ⟨a, List.mem_cons_of_mem _ ha, hr⟩

/-- The interfaces that a transfer loads belong to its source and to the cores it delivers to. -/
theorem loads_attr {dev : Device} {t : Transfer} {L : List Int} (hr : RectsOk t)
    (h : loads dev t = .ok L) {k : Int} (hk : k ∈ L) :
    dev.niuAt t.src (srcNiu t.noc) = .ok k ∨
      ∃ c, DeliversTo t c ∧ dev.niuAt c (sinkNiu t.noc) = .ok k := by
  unfold loads at h
  obtain ⟨s, h1, h⟩ := Out.bind_eq_ok.mp h
  obtain ⟨l, h2, h⟩ := Out.bind_eq_ok.mp h
  rw [← Out.ok.inj h] at hk
  rcases List.mem_cons.mp hk with rfl | hk
  · exact Or.inl h1
  right
  unfold sinkIds at h2
  cases hd : t.dst with
  | unicast d =>
    simp only [hd] at h2
    obtain ⟨i, h3, h4⟩ := Out.bind_eq_ok.mp h2
    rw [← Out.ok.inj h4] at hk
    rw [List.mem_singleton.mp hk]
    refine ⟨d, ?_, h3⟩
    unfold DeliversTo; simp only [hd]
  | mcast gs =>
    simp only [hd] at h2
    obtain ⟨cs, h3, h4⟩ := Out.bind_eq_ok.mp h2
    obtain ⟨c, hc, hck⟩ := forall₂_mem_right (Out.mapM_eq_ok.mp h4) k hk
    refine ⟨c, ?_, hck⟩
    unfold mcastWorkers at h3
    rw [mcastCoords_eq gs (hr gs hd), Out.bind_ok] at h3
    obtain ⟨tys, _, h5⟩ := Out.bind_eq_ok.mp h3
    rw [← Out.ok.inj h5] at hc
    obtain ⟨p, hp, rfl⟩ := List.mem_map.mp hc
    have hm := (List.of_mem_zip (List.mem_filter.mp hp).1).1
    obtain ⟨g, hg, hcg⟩ := List.mem_flatMap.mp hm
    unfold DeliversTo
    simp only [hd]
    exact ⟨g, hg, mem_cells.mp hcg⟩

theorem loads_disjoint {dev : Device} (hl : dev.nLinks ≤ 32768) {t u : Transfer} (hrt : RectsOk t)
    (hru : RectsOk u) (hsrc : t.noc = u.noc → ¬ SameCore dev t.src u.src)
    (hsk : t.noc = u.noc → ∀ a b, DeliversTo t a → DeliversTo u b → ¬ SameCore dev a b)
    {L M : List Int} (hL : loads dev t = .ok L) (hM : loads dev u = .ok M) : ∀ k ∈ L, k ∉ M := by
  intro k hk hm
  rcases loads_attr hrt hL hk with h1 | ⟨c, h1, h1'⟩ <;> rcases loads_attr hru hM hm with h2 | ⟨d, h2, h2'⟩
  · obtain ⟨e, hc⟩ := niuAt_inj hl h1 h2
    exact hsrc (srcNiu_inj e) hc
  · exact absurd (niuAt_inj hl h1 h2').1 (srcNiu_ne_sink _ _)
  · exact absurd (niuAt_inj hl h1' h2).1.symm (srcNiu_ne_sink _ _)
  · obtain ⟨e, hc⟩ := niuAt_inj hl h1' h2'
    exact hsk (sinkNiu_inj e) c d h1 h2 hc

/-! ### The links of a NoC -/

/-- A link identifier of the given NoC. -/
def OfNoc (dev : Device) (noc : Noc) (i : Int) : Prop :=
  ∃ a : LinkAttr, dev.On a.coord ∧ i = dev.linkIdx a ∧ a.type ∈ nocLinks noc

theorem unicastLoop_noc {dev : Device} (hl : dev.nLinks ≤ 32768) {noc : Noc} {er ec : Int} :
    ∀ (fuel : Nat) (r c : Int) (l : List Int), dev.unicastLoop noc er ec fuel r c = .ok l →
      ∀ i ∈ l, OfNoc dev noc i := by
  intro fuel
  induction fuel with
  | zero => intro r c l h; simp [Device.unicastLoop] at h
  | succ n ih =>
    intro r c l h
    have key : ∀ (ty : LinkType) (r' c' : Int), ty ∈ nocLinks noc →
        (dev.getLinkID ⟨⟨0, r, c⟩, ty⟩ >>= fun x => dev.unicastLoop noc er ec n r' c' >>= fun rest =>
          .ok (x :: rest)) = .ok l → ∀ i ∈ l, OfNoc dev noc i := by
      intro ty r' c' hty h
      obtain ⟨x, h1, h⟩ := Out.bind_eq_ok.mp h
      obtain ⟨rest, h2, h⟩ := Out.bind_eq_ok.mp h
      rw [← Out.ok.inj h]
      intro i hi
      rcases List.mem_cons.mp hi with rfl | hi
      · obtain ⟨o, e⟩ := getLinkID_ok hl h1
        exact ⟨_, o, e, hty⟩
      · exact ih _ _ _ h2 i hi
    have nil : (.ok [] : Out (List Int)) = .ok l → ∀ i ∈ l, OfNoc dev noc i := by
      intro h; rw [← Out.ok.inj h]; simp
    unfold Device.unicastLoop at h
    cases noc with
    | noc0 =>
      simp only at h
      split at h
      · exact key _ _ _ (by simp [nocLinks]) h
      · split at h
        · exact key _ _ _ (by simp [nocLinks]) h
        · exact nil h
    | noc1 =>
      simp only at h
      split at h
      · exact key _ _ _ (by simp [nocLinks]) h
      · split at h
        · exact key _ _ _ (by simp [nocLinks]) h
        · exact nil h

theorem foldlM_insert_noc {dev : Device} {noc : Noc} {f : Int → Out (List Int)}
    (hf : ∀ x r, f x = .ok r → ∀ i ∈ r, OfNoc dev noc i) : ∀ (xs : List Int) (set set' : List Int),
    (∀ i ∈ set, OfNoc dev noc i) →
    Out.foldlM (fun set x => f x >>= fun r => .ok (Device.insertAll set r)) set xs = .ok set' →
    ∀ i ∈ set', OfNoc dev noc i := by
  intro xs
  induction xs with
  | nil => intro set set' h0 h; rw [← Out.ok.inj h]; exact h0
  | cons x xs ih =>
    intro set set' h0 h
    rw [Out.foldlM_cons] at h
    obtain ⟨s1, h1, h⟩ := Out.bind_eq_ok.mp h
    obtain ⟨r, h2, h3⟩ := Out.bind_eq_ok.mp h1
    refine ih s1 set' ?_ h
    rw [← Out.ok.inj h3]
    intro i hi
    rcases (Device.mem_insertAll _ _ _).mp hi with hi | hi
    · exact h0 i hi
    · exact hf x r h2 i hi

theorem routeSingle_noc {dev : Device} (hl : dev.nLinks ≤ 32768) {ord : List Int → List Int}
    (hord : ∀ l, (ord l).Perm l) {noc : Noc} {s : Coord} {d : Dest} {r : List Int}
    (h : dev.routeSingle ord noc s d = .ok r) : ∀ i ∈ r, OfNoc dev noc i := by
  unfold Device.routeSingle at h
  cases d with
  | unicast e => exact unicastLoop_noc hl _ _ _ _ h
  | mcast gs =>
    simp only at h
    unfold Device.multicastRoute at h
    obtain ⟨_, _, h⟩ := Out.bind_eq_ok.mp h
    cases gs with
    | nil => simp at h
    | cons g gs =>
      simp only at h
      have hf : ∀ (k : Int → Coord) x r, dev.unicastRoute noc s (k x) = .ok r → ∀ i ∈ r, OfNoc dev noc i :=
        fun k x r h => unicastLoop_noc hl _ _ _ _ h
      cases noc with
      | noc0 =>
        simp only at h
        obtain ⟨set, h1, h⟩ := Out.bind_eq_ok.mp h
        rw [← Out.ok.inj h]
        intro i hi
        exact foldlM_insert_noc (f := fun c => dev.unicastRoute .noc0 s ⟨0, g.hi.row, c⟩)
          (hf fun c => ⟨0, g.hi.row, c⟩) _ [] set (by simp) h1 i ((hord set).subset hi)
      | noc1 =>
        simp only at h
        obtain ⟨set, h1, h⟩ := Out.bind_eq_ok.mp h
        rw [← Out.ok.inj h]
        intro i hi
        exact foldlM_insert_noc (f := fun r => dev.unicastRoute .noc1 s ⟨0, r, g.hi.col⟩)
          (hf fun r => ⟨0, r, g.hi.col⟩) _ [] set (by simp) h1 i ((hord set).subset hi)

theorem route_noc {dev : Device} (hd : DeviceOk dev) {ord : List Int → List Int}
    (hord : ∀ l, (ord l).Perm l) {noc : Noc} {s : Coord} {d : Dest} {r : List Int}
    (h : dev.route ord noc s d = .ok r) : ∀ i ∈ r, OfNoc dev noc i := by
  have hl : dev.nLinks ≤ 32768 := hd.ids
  unfold Device.route at h
  split at h
  · obtain ⟨_, _, h⟩ := Out.bind_eq_ok.mp h
    obtain ⟨_, _, h⟩ := Out.bind_eq_ok.mp h
    obtain ⟨r0, h1, h⟩ := Out.bind_eq_ok.mp h
    have hb : dev.base.nLinks ≤ 32768 := by
      refine le_trans ?_ hl
      show 1 * _ ≤ dev.chips * _
      exact Nat.mul_le_mul_right _ hd.chips_pos
    have h2 := routeSingle_noc hb hord h1
    intro i hi
    unfold Device.changeRouteDeviceID at h
    obtain ⟨j, hj, hji⟩ := forall₂_mem_right (Out.mapM_eq_ok.mp h) i hi
    obtain ⟨a, ha, h3⟩ := Out.bind_eq_ok.mp hji
    obtain ⟨b, hb1, hb2, hb3⟩ := h2 j hj
    have hon : dev.On b.coord := by
      have := hd.chips_pos
      unfold Device.On at hb1 ⊢
      have hc : dev.base.chips = 1 := rfl
      have hr : dev.base.rows = dev.rows := rfl
      have hcl : dev.base.cols = dev.cols := rfl
      rw [hc, hr, hcl] at hb1
      omega
    have hidx : j = dev.linkIdx b := hb2
    have h4 := (dev.getLinkAttributes_eq j b).mpr ⟨hon, hidx⟩
    rw [ha] at h4
    have e := Out.ok.inj h4
    subst e
    obtain ⟨o, e⟩ := getLinkID_ok hl h3
    exact ⟨_, o, e, hb3⟩
  · exact routeSingle_noc hl hord h

theorem ofNoc_ne {dev : Device} {a b : Noc} (hab : a ≠ b) {i : Int} (h1 : OfNoc dev a i)
    (h2 : OfNoc dev b i) : False := by
  obtain ⟨x, x1, x2, x3⟩ := h1
  obtain ⟨y, y1, y2, y3⟩ := h2
  have := dev.linkIdx_inj x1 y1 (by rw [x2] at y2; exact_mod_cast y2)
  subst this
  cases a <;> cases b <;> simp [nocLinks] at hab x3 y3
  · rcases x3 with h | h <;> rw [h] at y3 <;> simp at y3
  · rcases x3 with h | h <;> rw [h] at y3 <;> simp at y3

end NPE
