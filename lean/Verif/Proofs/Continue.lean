import Verif.Proofs.FluidOrder
import Verif.Spec.Continue

/-
Further transfers that are scheduled later do not change the timesteps before.
-/

namespace NPE
open NPE.Spec NPE.Spec.Fluid

section
variable {n : Nat} {f : Nat → Nat} {job job' : Nat → Job}

theorem Frame.readyAt_eq (F : Frame n f job job') {n' : Nat} (hn : ∀ i, i < n → f i < n') {σ σ' : Fluid.State}
    (h : Agree n f σ σ') (curr : Nat) {i : Nat} (hi : i < n) :
    readyIn job' n' curr σ' (f i) = readyIn job n curr σ i := by
  unfold readyIn
  rw [F.after i hi, decide_eq_true hi, decide_eq_true (hn i hi)]
  cases ha : (job i).after with
  | none => rfl
  | some p =>
    obtain ⟨j, d⟩ := p
    simp only [Option.map_some]
    rw [h j (F.closed i hi j d ha)]

theorem Frame.loadOf_eq (F : Frame n f job job') {σ σ' : Fluid.State}
    (h : Agree n f σ σ') (fp : FP) (dev : Device) (cpt curr : Nat) {order : List Nat} (ho : ∀ j ∈ order, j < n)
    {w : TState → Nat} (hw : ∀ t u : TState, SameData t.params u.params → t.route = u.route → w u = w t) :
    loadIn fp dev job' cpt (order.map f) w curr σ' = loadIn fp dev job cpt order w curr σ := by
  unfold loadIn
  congr 1
  rw [List.flatMap_def, List.flatMap_def, List.map_map]
  congr 1
  refine List.map_congr_left fun j hj => ?_
  have hlt := ho j hj
  simp only [Function.comp]
  rw [hw ((job j).began 0) ((job' (f j)).began 0) (F.data j hlt) (F.route j hlt).symm]
  congr 1
  unfold demand
  rw [h j hlt, own_same fp dev (F.data j hlt)]

theorem Frame.speed_eq (F : Frame n f job job') {σ σ' : Fluid.State}
    (h : Agree n f σ σ') (fp : FP) (dev : Device) (cpt curr : Nat) {order order' : Nat → List Nat}
    (ho : ∀ j ∈ order curr, j < n) (ho' : order' curr = (order curr).map f) {i : Nat} (hi : i < n) :
    sharedIn fp dev job' cpt order' curr σ' (f i) = sharedIn fp dev job cpt order curr σ i := by
  have hd := F.data i hi
  obtain ⟨e1, e2, e3, _, _, _, _, e4, _⟩ := SameData.fields hd
  have e0 : (job' (f i)).route = (job i).route := F.route i hi
  have e5 : own fp dev (job' (f i)).t = own fp dev (job i).t := own_same fp dev hd
  have hl : ∀ l, loadIn fp dev job' cpt ((order curr).map f) (fun u => u.route.count l) curr σ' =
      loadIn fp dev job cpt (order curr) (fun u => u.route.count l) curr σ :=
    fun l => F.loadOf_eq h fp dev cpt curr ho fun t u _ e => by simp only [e]
  have hs : ∀ noc c, loadIn fp dev job' cpt ((order curr).map f) (leaves dev noc c) curr σ' =
      loadIn fp dev job cpt (order curr) (leaves dev noc c) curr σ :=
    fun noc c => F.loadOf_eq h fp dev cpt curr ho fun t u e _ => by unfold SameData at e; unfold leaves; rw [← e]
  have hk : ∀ noc c, loadIn fp dev job' cpt ((order curr).map f) (reaches dev noc c) curr σ' =
      loadIn fp dev job cpt (order curr) (reaches dev noc c) curr σ :=
    fun noc c => F.loadOf_eq h fp dev cpt curr ho fun t u e _ => by unfold SameData at e; unfold reaches; rw [← e]
  unfold sharedIn
  simp only [e0, e1, e2, e3, e4, e5, ho', hl, hs, hk]

end

/-! ### The queue -/

/-- An entry of the queue, renumbered. -/
def moveEntry (f : Nat → Nat) (x : Nat × Nat) : Nat × Nat := (x.1, f x.2)

theorem swap_behind {α β : Type} (L : List β) (g : α → β) {q r : List α} {a b : Nat} (h : swap q a b = .ok r) :
    swap (L ++ q.map g) (L.length + a) (L.length + b) = .ok (L ++ r.map g) := by
  unfold swap at h ⊢
  have get : ∀ i, (L ++ q.map g)[L.length + i]? = (q[i]?).map g := by
    intro i
    rw [List.getElem?_append_right (by omega), Nat.add_sub_cancel_left, List.getElem?_map]
  rw [get, get]
  cases ha : q[a]? with
  | none => rw [ha] at h; simp at h
  | some x =>
    cases hb : q[b]? with
    | none => rw [ha, hb] at h; simp at h
    | some y =>
      rw [ha, hb] at h
      simp only [Option.map_some, Out.ok.injEq] at h ⊢
      rw [← h, List.set_append_right _ _ (by omega), Nat.add_sub_cancel_left,
        List.set_append_right _ _ (by omega), Nat.add_sub_cancel_left, List.map_set, List.map_set]

theorem swap_exists {α : Type} (q : List α) {a b : Nat} (ha : a < q.length) (hb : b < q.length) :
    ∃ r, swap q a b = .ok r ∧ r.length = q.length := by
  unfold swap
  rw [List.getElem?_eq_getElem ha, List.getElem?_eq_getElem hb]
  exact ⟨_, rfl, by simp⟩

theorem swap_mem {α : Type} {q r : List α} {a b : Nat} (h : swap q a b = .ok r) : ∀ x ∈ r, x ∈ q := by
  intro x hx
  unfold swap at h
  cases ha : q[a]? with
  | none => rw [ha] at h; simp at h
  | some y =>
    cases hb : q[b]? with
    | none => rw [ha, hb] at h; simp at h
    | some z =>
      rw [ha, hb] at h
      simp only [Out.ok.injEq] at h
      rw [← h] at hx
      rcases List.mem_or_eq_of_mem_set hx with hx | rfl
      · rcases List.mem_or_eq_of_mem_set hx with hx | rfl
        · exact hx
        · exact List.mem_of_getElem? hb
      · exact List.mem_of_getElem? ha

/-- Entries in front that are not due do not change the scan. -/
theorem pick_behind {ready ready' : Nat → Bool} {curr : Nat} {f : Nat → Nat} {L : List (Nat × Nat)}
    (hL : ∀ x ∈ L, curr < x.1) {n : Nat} (hr : ∀ i, i < n → ready' (f i) = ready i) :
    ∀ (m : Nat) (q : List (Nat × Nat)) (live : List Nat) (a : Nat), a + m ≤ q.length → (∀ x ∈ q, x.2 < n) →
      pick ready' curr (L.length + m) (L ++ q.map (moveEntry f), live.map f, a) =
        (L ++ (pick ready curr m (q, live, a)).1.map (moveEntry f), (pick ready curr m (q, live, a)).2.1.map f,
          (pick ready curr m (q, live, a)).2.2) ∧
      (∀ x ∈ (pick ready curr m (q, live, a)).1, x.2 < n) ∧
      (pick ready curr m (q, live, a)).2.2 ≤ (pick ready curr m (q, live, a)).1.length := by
  intro m
  induction m with
  | zero =>
    intro q live a ha hq
    refine ⟨?_, hq, ha⟩
    cases hl : L.length with
    | zero => rfl
    | succ k =>
      have hk : k < L.length := by omega
      show pick ready' curr (k + 1) _ = _
      unfold pick
      simp only
      rw [List.getElem?_append_left hk, List.getElem?_eq_getElem hk]
      simp only
      rw [if_neg (by have := hL _ (List.getElem_mem hk); omega)]
  | succ i ih =>
    intro q live a ha hq
    have hi : i < q.length := by omega
    show pick ready' curr (L.length + i + 1) _ = _ ∧ _
    unfold pick
    simp only
    rw [List.getElem?_append_right (by omega), Nat.add_sub_cancel_left, List.getElem?_map, List.getElem?_eq_getElem hi]
    simp only [Option.map_some, moveEntry]
    by_cases hc : q[i].1 ≤ curr
    · rw [if_pos hc, if_pos hc, hr _ (hq _ (List.getElem_mem hi))]
      cases hb : ready q[i].2 with
      | false =>
        simp only [Bool.false_eq_true, if_false]
        exact ih q live a (by omega) hq
      | true =>
        simp only [if_true]
        obtain ⟨r, h1, h2⟩ := swap_exists q (a := q.length - 1 - a) (b := i) (by omega) hi
        have h3 := swap_behind L (moveEntry f) h1
        rw [show L.length + (q.length - 1 - a) = (L ++ q.map (moveEntry f)).length - 1 - a by
          rw [List.length_append, List.length_map]; omega] at h3
        rw [h1]
        rw [h3]
        simp only
        have := ih r (live ++ [q[i].2]) (a + 1) (by omega) (fun x hx => hq x (swap_mem h1 x hx))
        rw [List.map_append] at this
        exact this
    · rw [if_neg hc, if_neg hc]
      exact ⟨rfl, hq, show a ≤ q.length by omega⟩

/-- Two runs, of which the second one has further transfers, which are not due before cycle `T`. -/
theorem Frame.plan_late {n n' : Nat} {f : Nat → Nat} {job job' : Nat → Job} (F : Frame n f job job')
    (hn : ∀ i, i < n → f i < n') (fp : FP) (dev : Device) (cpt : Nat) {T : Nat} {q0 : List (Nat × Nat)}
    (hq0 : ∀ x ∈ q0, x.2 < n) {L : List (Nat × Nat)} (hL : ∀ x ∈ L, T ≤ x.1) : ∀ k, k * cpt < T →
      Agree n f (plan fp dev job n cpt q0 k).σ (plan fp dev job' n' cpt (L ++ q0.map (moveEntry f)) k).σ ∧
      (plan fp dev job' n' cpt (L ++ q0.map (moveEntry f)) k).queue =
        L ++ (plan fp dev job n cpt q0 k).queue.map (moveEntry f) ∧
      (plan fp dev job' n' cpt (L ++ q0.map (moveEntry f)) k).live = (plan fp dev job n cpt q0 k).live.map f ∧
      ∀ x ∈ (plan fp dev job n cpt q0 k).queue, x.2 < n := by
  intro k
  induction k with
  | zero => intro _; exact ⟨fun _ _ => rfl, rfl, rfl, hq0⟩
  | succ k ih =>
    intro hT
    obtain ⟨a, b, c, d⟩ := ih (by rw [Nat.succ_mul] at hT; omega)
    have key := pick_behind (f := f) (L := L) (curr := (k + 1) * cpt) (fun x hx => by have := hL x hx; omega)
      (n := n) (ready := readyIn job n ((k + 1) * cpt) (plan fp dev job n cpt q0 k).σ)
      (ready' := readyIn job' n' ((k + 1) * cpt) (plan fp dev job' n' cpt (L ++ q0.map (moveEntry f)) k).σ)
      (fun i hi => F.readyAt_eq hn a _ hi) (plan fp dev job n cpt q0 k).queue.length
      (plan fp dev job n cpt q0 k).queue (plan fp dev job n cpt q0 k).live 0 (by omega) d
    have hp : (plan fp dev job' n' cpt (L ++ q0.map (moveEntry f)) k).picked job' n' ((k + 1) * cpt) =
        (L ++ ((plan fp dev job n cpt q0 k).picked job n ((k + 1) * cpt)).1.map (moveEntry f),
          ((plan fp dev job n cpt q0 k).picked job n ((k + 1) * cpt)).2.1.map f,
          ((plan fp dev job n cpt q0 k).picked job n ((k + 1) * cpt)).2.2) := by
      unfold Plan.picked
      rw [b, c, List.length_append, List.length_map]
      exact key.1
    have hlt := picked_lt (job := job) (curr := (k + 1) * cpt) (plan_lt fp dev job n cpt q0 k)
    have hσ : Agree n f (plan fp dev job n cpt q0 (k + 1)).σ
        (plan fp dev job' n' cpt (L ++ q0.map (moveEntry f)) (k + 1)).σ := by
      refine F.advance_eq (fun σ σ' hA i hi => ?_) (F.start_eq a _)
      exact F.speed_eq hA fp dev cpt _ hlt (by rw [hp]) hi
    refine ⟨hσ, ?_, ?_, ?_⟩
    · show List.take _ _ = L ++ List.map _ (List.take _ _)
      rw [hp]
      simp only
      have hle := key.2.2
      change ((plan fp dev job n cpt q0 k).picked job n ((k + 1) * cpt)).2.2 ≤
        ((plan fp dev job n cpt q0 k).picked job n ((k + 1) * cpt)).1.length at hle
      rw [List.length_append, List.length_map, Nat.add_sub_assoc hle, List.take_length_add_append, List.map_take]
    · show List.filter _ _ = List.map _ (List.filter _ _)
      rw [hp]
      simp only
      rw [List.filter_map]
      congr 1
      refine List.filter_congr fun i hi => ?_
      have := congrArg Prog.isActive (hσ i (hlt i hi))
      have e : (plan fp dev job' n' cpt (L ++ q0.map (moveEntry f)) (k + 1)).σ = advance fp.f32.fl job' cpt
        (sharedIn fp dev job' cpt fun _ =>
          ((plan fp dev job' n' cpt (L ++ q0.map (moveEntry f)) k).picked job' n' ((k + 1) * cpt)).2.1) ((k + 1) * cpt)
        (Fluid.start job' ((k + 1) * cpt) (plan fp dev job' n' cpt (L ++ q0.map (moveEntry f)) k).σ) := rfl
      rw [e, hp] at this
      exact this
    · intro x hx
      exact key.2.1 x (List.mem_of_mem_take hx)

/-! ### The initial states -/

section
variable {fp : FP} {dev : Device} {ho ho' : HashOrder} {wl wl' : Workload} {s0 s0' : Sim} {f : Nat → Nat} {T : Nat}

theorem Spec.Continues.embeds (C : Continues s0 s0' f T) : Embeds dev s0 s0' f := embeds_of_mono C.order C.same

/-- What is earlier than a transfer of the smaller workload belongs to it. -/
theorem Spec.Continues.earlier (C : Continues s0 s0' f T) {i : Nat} (hi : i < s0.ts.length) {j' : Nat}
    (h : Earlier s0' j' (f i)) : ∃ j, j < s0.ts.length ∧ f j = j' := by
  by_contra hx
  have gi : s0.ts[i]? = some s0.ts[i] := List.getElem?_eq_getElem hi
  obtain ⟨ti', a1, a2⟩ := C.same i _ gi
  obtain ⟨u, y, c1, c2, c3⟩ := h
  rw [a1] at c2
  have e2 := Option.some.inj c2
  subst e2
  have h1 := (C.late j' u c1 (fun j hj e => hx ⟨j, hj, e⟩)).1
  have h2 := C.early i _ gi
  rw [a2.offset] at c3
  omega

theorem late_mates (h0 : initSim fp dev ho wl = .ok s0) (h0' : initSim fp dev ho' wl' = .ok s0')
    (hl : ho'.links = ho.links) (E : Embeds dev s0 s0' f) {i j : Nat} (hi : i < s0.ts.length) (hj : j < s0.ts.length) :
    LaneMates (SameLane dev) s0' (f j) (f i) ↔ LaneMates (SameLane dev) s0 j i := by
  have gi : s0.ts[i]? = some s0.ts[i] := List.getElem?_eq_getElem hi
  have gj : s0.ts[j]? = some s0.ts[j] := List.getElem?_eq_getElem hj
  obtain ⟨ti', a1, a2, a3⟩ := embed_get h0 h0' hl E.toContains gi
  obtain ⟨tj', b1, b2, b3⟩ := embed_get h0 h0' hl E.toContains gj
  constructor
  · rintro ⟨x, y, c1, c2, c3⟩
    rw [b1] at c1; rw [a1] at c2
    have e1 := Option.some.inj c1
    have e2 := Option.some.inj c2
    subst e1; subst e2
    exact ⟨_, _, gj, gi, (sameLane_same b2 a2 b3 a3).mp c3⟩
  · rintro ⟨x, y, c1, c2, c3⟩
    rw [gj] at c1; rw [gi] at c2
    have e1 := Option.some.inj c1
    have e2 := Option.some.inj c2
    subst e1; subst e2
    exact ⟨tj', ti', b1, a1, (sameLane_same b2 a2 b3 a3).mpr c3⟩

theorem late_twoBefore (h0 : initSim fp dev ho wl = .ok s0) (h0' : initSim fp dev ho' wl' = .ok s0')
    (hl : ho'.links = ho.links) (C : Continues s0 s0' f T) {i : Nat} (hi : i < s0.ts.length) (j' : Nat) :
    TwoBefore (SameLane dev) s0' j' (f i) ↔
      ∃ j, j < s0.ts.length ∧ f j = j' ∧ TwoBefore (SameLane dev) s0 j i := by
  have ear := fun {a b : Nat} (ha : a < s0.ts.length) (hb : b < s0.ts.length) (hab : LaneMates (SameLane dev) s0 b a) =>
    embed_earlier h0 h0' hl (C.embeds (dev := dev)) (i := a) (j := b) ha hb hab
  have mat := fun {j : Nat} (hj : j < s0.ts.length) => late_mates h0 h0' hl C.embeds hi hj
  constructor
  · rintro ⟨c1, c2, k', ⟨c3, c4, c5⟩, c6⟩
    obtain ⟨j, hj, rfl⟩ := C.earlier hi c2
    obtain ⟨k, hk, rfl⟩ := C.earlier hi c5
    have d1 := (mat hj).mp c1
    have d3 := (mat hk).mp c3
    refine ⟨j, hj, rfl, d1, (ear hi hj d1).mp c2, k, ⟨d3, (ear hk hj (mates_both d1 d3)).mp c4, (ear hi hk d3).mp c5⟩, ?_⟩
    rintro y ⟨y1, y2, y3⟩
    have hy := mates_lt y1
    exact C.order.injective (c6 (f y) ⟨(mat hy).mpr y1, (ear hy hj (mates_both d1 y1)).mpr y2, (ear hi hy y1).mpr y3⟩)
  · rintro ⟨j, hj, rfl, d1, d2, k, ⟨d3, d4, d5⟩, d6⟩
    have hk := mates_lt d3
    refine ⟨(mat hj).mpr d1, (ear hi hj d1).mpr d2, f k,
      ⟨(mat hk).mpr d3, (ear hk hj (mates_both d1 d3)).mpr d4, (ear hi hk d3).mpr d5⟩, ?_⟩
    rintro y' ⟨y1, y2, y3⟩
    obtain ⟨y, hy, rfl⟩ := C.earlier hi y3
    have e1 := (mat hy).mp y1
    rw [d6 y ⟨e1, (ear hy hj (mates_both d1 e1)).mp y2, (ear hi hy e1).mp y3⟩]

/-- Counterparts wait for counterparts. -/
theorem late_waits (h0 : initSim fp dev ho wl = .ok s0) (h0' : initSim fp dev ho' wl' = .ok s0')
    (hb : ∀ l, (ho.buckets l).Perm l) (hb' : ∀ l, (ho'.buckets l).Perm l)
    (hl : ho'.links = ho.links) (C : Continues s0 s0' f T) (hpf : ParentsFound s0)
    {i : Nat} (hi : i < s0.ts.length) (j' d : Nat) :
    WaitsFor s0' (f i) j' d ↔ ∃ j, j < s0.ts.length ∧ f j = j' ∧ WaitsFor s0 i j d := by
  have E : Embeds dev s0 s0' f := C.embeds
  have gi : s0.ts[i]? = some s0.ts[i] := List.getElem?_eq_getElem hi
  obtain ⟨ti', a1, a2, a3⟩ := embed_get h0 h0' hl E.toContains gi
  obtain ⟨_, I⟩ := init0 h0
  obtain ⟨_, I'⟩ := init0 h0'
  obtain ⟨_, _, _, _, g1, _, g2, _⟩ := SameData.fields a2
  have hpp : HasParent ti'.params ↔ HasParent s0.ts[i].params := by
    unfold HasParent; rw [g1, g2]
  by_cases hp : HasParent s0.ts[i].params
  · obtain ⟨j0, p0, q1, q2⟩ := hpf i _ gi hp
    obtain ⟨p0', q3, q4, _⟩ := embed_get h0 h0' hl E.toContains q1
    rw [I'.waits_named a1 (hpp.mpr hp) ⟨_, p0', q3, (isParent_same q4 a2).mpr q2⟩]
    have back : ∀ (j' : Nat) (p' : TState), s0'.ts[j']? = some p' → IsParent p'.params ti'.params →
        ∃ j p, s0.ts[j]? = some p ∧ f j = j' ∧ SameData p.params p'.params ∧ IsParent p.params s0.ts[i].params := by
      intro j' p' c1 c2
      by_cases hx : ∃ j, j < s0.ts.length ∧ f j = j'
      · obtain ⟨j, hj, rfl⟩ := hx
        have gj : s0.ts[j]? = some s0.ts[j] := List.getElem?_eq_getElem hj
        obtain ⟨tj', b1, b2, b3⟩ := embed_get h0 h0' hl E.toContains gj
        rw [b1] at c1
        have e1 := Option.some.inj c1
        subst e1
        exact ⟨j, _, gj, rfl, b2, (isParent_same b2 a2).mp c2⟩
      · exfalso
        refine (C.late j' p' c1 (fun j hj e => hx ⟨j, hj, e⟩)).2 i _ gi hp ?_
        unfold IsParent at c2 ⊢
        rw [g1, g2] at c2
        exact c2
    constructor
    · rintro ⟨⟨p', c1, c2, c3⟩, c4⟩
      obtain ⟨j, p, e1, rfl, e3, e4⟩ := back j' p' c1 c2
      refine ⟨j, (List.getElem?_eq_some_iff.mp e1).1, rfl, ?_⟩
      rw [I.waits_named gi hp ⟨_, _, q1, q2⟩]
      refine ⟨⟨p, e1, e4, ?_⟩, fun k pk k1 k2 => ?_⟩
      · rw [groupDelay_same fp dev a2, (SameData.fields e3).2.1] at c3
        exact c3
      · obtain ⟨pk', k3, k4, _⟩ := embed_get h0 h0' hl E.toContains k1
        exact C.order.le_iff_le.mp (c4 _ pk' k3 ((isParent_same k4 a2).mpr k2))
    · rintro ⟨j, hj, rfl, hw⟩
      rw [I.waits_named gi hp ⟨_, _, q1, q2⟩] at hw
      obtain ⟨⟨p, e1, e4, e5⟩, e6⟩ := hw
      obtain ⟨p', b1, b2, _⟩ := embed_get h0 h0' hl E.toContains e1
      refine ⟨⟨p', b1, (isParent_same b2 a2).mpr e4, ?_⟩, fun k' pk' k1 k2 => ?_⟩
      · rw [groupDelay_same fp dev a2, (SameData.fields b2).2.1]; exact e5
      · obtain ⟨k, pk, k3, rfl, _, k5⟩ := back k' pk' k1 k2
        exact C.order.le_iff_le.mpr (e6 k pk k3 k5)
  · rw [I'.waits_niu hb' a1 (fun h => hp (hpp.mp h)), late_twoBefore h0 h0' hl C hi]
    constructor
    · rintro ⟨rfl, j, hj, rfl, h⟩
      exact ⟨j, hj, rfl, (I.waits_niu hb gi hp j 0).mpr ⟨rfl, h⟩⟩
    · rintro ⟨j, hj, rfl, h⟩
      obtain ⟨e1, e2⟩ := (I.waits_niu hb gi hp j d).mp h
      exact ⟨e1, j, hj, rfl, e2⟩

theorem late_frame (h0 : initSim fp dev ho wl = .ok s0) (h0' : initSim fp dev ho' wl' = .ok s0')
    (hb : ∀ l, (ho.buckets l).Perm l) (hb' : ∀ l, (ho'.buckets l).Perm l)
    (hl : ho'.links = ho.links) (C : Continues s0 s0' f T) (hpf : ParentsFound s0)
    {job job' : Nat → Job} (hd : Describes job s0) (hd' : Describes job' s0') :
    Frame s0.ts.length f job job' := by
  have get : ∀ i, i < s0.ts.length → ∃ t t', s0.ts[i]? = some t ∧ s0'.ts[f i]? = some t' ∧
      SameData t.params t'.params ∧ t'.route = t.route := by
    intro i hi
    obtain ⟨t', a1, a2, a3⟩ := embed_get h0 h0' hl (C.embeds (dev := dev)).toContains (List.getElem?_eq_getElem hi)
    exact ⟨_, t', List.getElem?_eq_getElem hi, a1, a2, a3⟩
  refine ⟨fun i hi => ?_, fun i hi => ?_, fun i hi => ?_, fun i hi j d ha => ?_⟩
  · obtain ⟨t, t', a1, a2, a3, a4⟩ := get i hi
    rw [(hd i t a1).1, (hd' _ t' a2).1]; exact a3
  · obtain ⟨t, t', a1, a2, a3, a4⟩ := get i hi
    rw [(hd i t a1).2.1, (hd' _ t' a2).2.1]; exact a4
  · obtain ⟨t, t', a1, a2, a3, a4⟩ := get i hi
    have e := (hd i t a1).2.2
    have e' := (hd' _ t' a2).2.2
    have hw := late_waits h0 h0' hb hb' hl C hpf hi
    cases ha : (job i).after with
    | none =>
      cases ha' : (job' (f i)).after with
      | none => rfl
      | some p =>
        obtain ⟨j, _, _, h⟩ := (hw p.1 p.2).mp ((e' p.1 p.2).mp ha')
        rw [(e j p.2).mpr h] at ha
        cases ha
    | some p =>
      have h := (e p.1 p.2).mp ha
      obtain ⟨_, _, _, _, h2, _⟩ := id h
      exact (e' (f p.1) p.2).mpr ((hw _ _).mpr ⟨p.1, (List.getElem?_eq_some_iff.mp h2).1, rfl, h⟩)
  · obtain ⟨t, t', a1, a2, a3, a4⟩ := get i hi
    obtain ⟨_, _, _, _, h2, _⟩ := ((hd i t a1).2.2 j d).mp ha
    exact (List.getElem?_eq_some_iff.mp h2).1

/-- The order of the queue. -/
def QueueOrder (a b : Nat × Nat) : Prop := b.1 < a.1 ∨ (b.1 = a.1 ∧ b.2 ≤ a.2)

theorem createTransferQueue_sorted (ts : List TState) : (createTransferQueue ts).Pairwise QueueOrder := by
  have := sortBy_pairwise (le := fun a b : Nat × Nat => decide (b.1 < a.1 ∨ (b.1 = a.1 ∧ b.2 ≤ a.2)))
    (fun a b h => by simp only [decide_eq_false_iff_not, decide_eq_true_eq] at h ⊢; omega)
    (fun a b c h1 h2 => by simp only [decide_eq_true_eq] at h1 h2 ⊢; omega)
    (ts.map fun t => (t.params.offset, t.params.id.toNat))
  exact this.imp fun h => by simpa [QueueOrder] using h

theorem queue_mem {ts : List TState} (hd : DenseTs ts) (x : Nat × Nat) :
    x ∈ createTransferQueue ts ↔ ∃ t, ts[x.2]? = some t ∧ t.params.offset = x.1 := by
  unfold createTransferQueue
  rw [(sortBy_perm _ _).mem_iff, List.mem_map]
  constructor
  · rintro ⟨t, ht, rfl⟩
    obtain ⟨i, hi⟩ := List.mem_iff_getElem?.mp ht
    have := hd i t hi
    exact ⟨t, by simp only [this]; simpa using hi, rfl⟩
  · rintro ⟨t, ht, h⟩
    refine ⟨t, List.mem_of_getElem? ht, ?_⟩
    have := hd _ t ht
    rw [this, h]
    simp

theorem queue_nodup {ts : List TState} (hd : DenseTs ts) : (createTransferQueue ts).Nodup := by
  unfold createTransferQueue
  rw [(sortBy_perm _ _).nodup_iff]
  refine List.Nodup.of_map Prod.snd ?_
  rw [List.map_map]
  have : ts.map (Prod.snd ∘ fun t => (t.params.offset, t.params.id.toNat)) = List.range ts.length := by
    refine List.ext_getElem? fun i => ?_
    rw [List.getElem?_map]
    by_cases hi : i < ts.length
    · rw [List.getElem?_eq_getElem hi, List.getElem?_range hi]
      simp [hd i _ (List.getElem?_eq_getElem hi)]
    · rw [List.getElem?_eq_none (by omega), List.getElem?_eq_none (by simp; omega)]
      rfl
  rw [this]
  exact List.nodup_range

theorem init_queue_facts (h0 : initSim fp dev ho wl = .ok s0) :
    (∀ x, x ∈ s0.queue ↔ ∃ t, s0.ts[x.2]? = some t ∧ t.params.offset = x.1) ∧ s0.queue.Nodup ∧
      s0.queue.Pairwise QueueOrder := by
  obtain ⟨ts, I⟩ := init0 h0
  have e := init_queue h0 I
  refine ⟨fun x => ?_, by rw [e]; exact queue_nodup I.dense, by rw [e]; exact createTransferQueue_sorted ts⟩
  rw [e, queue_mem I.dense]
  constructor
  · rintro ⟨t, h1, h2⟩
    obtain ⟨u, h3, h4, _⟩ := I.get' h1
    exact ⟨u, h3, by rw [← h4]; exact h2⟩
  · rintro ⟨t, h1, h2⟩
    obtain ⟨u, h3, h4, _⟩ := I.get h1
    exact ⟨u, h3, by rw [h4]; exact h2⟩

theorem queueOrder_antisymm (a b : Nat × Nat) (h1 : QueueOrder a b) (h2 : QueueOrder b a) : a = b := by
  obtain ⟨a, c⟩ := a
  obtain ⟨b, d⟩ := b
  unfold QueueOrder at h1 h2
  simp only at h1 h2
  rw [Prod.mk.injEq]
  omega

/-- The queue of the larger workload ends with that of the smaller one. -/
theorem late_queue (h0 : initSim fp dev ho wl = .ok s0) (h0' : initSim fp dev ho' wl' = .ok s0')
    (C : Continues s0 s0' f T) : ∃ L, (∀ x ∈ L, T ≤ x.1) ∧ s0'.queue = L ++ s0.queue.map (moveEntry f) ∧
      ∀ x ∈ s0.queue, x.2 < s0.ts.length := by
  obtain ⟨m, n0, p0⟩ := init_queue_facts h0
  obtain ⟨m', n0', p0'⟩ := init_queue_facts h0'
  have lt0 : ∀ x ∈ s0.queue, x.1 < T := by
    intro x hx
    obtain ⟨t, h1, h2⟩ := (m x).mp hx
    rw [← h2]; exact C.early _ t h1
  refine ⟨s0'.queue.filter fun x => decide (T ≤ x.1), fun x hx => by simpa using (List.mem_filter.mp hx).2, ?_, ?_⟩
  · have inj : Function.Injective (moveEntry f) := by
      rintro ⟨a, b⟩ ⟨c, d⟩ h
      obtain ⟨h1, h2⟩ := Prod.mk.inj h
      rw [Prod.mk.injEq]
      exact ⟨h1, C.order.injective h2⟩
    have hnd : (s0'.queue.filter (fun x => decide (T ≤ x.1)) ++ s0.queue.map (moveEntry f)).Nodup := by
      refine List.nodup_append.mpr ⟨n0'.filter _, n0.map inj, ?_⟩
      rintro x hx y hy rfl
      obtain ⟨z, hz, rfl⟩ := List.mem_map.mp hy
      have h1 := lt0 z hz
      have h2 : T ≤ (moveEntry f z).1 := by simpa using (List.mem_filter.mp hx).2
      have h3 : (moveEntry f z).1 = z.1 := rfl
      omega
    have hperm : s0'.queue.Perm (s0'.queue.filter (fun x => decide (T ≤ x.1)) ++ s0.queue.map (moveEntry f)) := by
      rw [List.perm_ext_iff_of_nodup n0' hnd]
      intro x
      rw [List.mem_append, List.mem_filter]
      constructor
      · intro hx
        by_cases hT : T ≤ x.1
        · exact Or.inl ⟨hx, by simpa using hT⟩
        · right
          obtain ⟨u, h1, h2⟩ := (m' x).mp hx
          have : ∃ i, i < s0.ts.length ∧ f i = x.2 := by
            by_contra hn
            have := (C.late _ u h1 (fun i hi h => hn ⟨i, hi, h⟩)).1
            omega
          obtain ⟨i, hi, hfi⟩ := this
          obtain ⟨t', a1, a2⟩ := C.same i _ (List.getElem?_eq_getElem hi)
          rw [hfi, h1] at a1
          rw [← Option.some.inj a1] at a2
          refine List.mem_map.mpr ⟨(x.1, i), (m _).mpr ⟨_, List.getElem?_eq_getElem hi, by rw [← a2.offset]; exact h2⟩, ?_⟩
          unfold moveEntry
          rw [hfi]
      · rintro (h | h)
        · exact h.1
        · obtain ⟨z, hz, rfl⟩ := List.mem_map.mp h
          obtain ⟨t, h1, h2⟩ := (m z).mp hz
          obtain ⟨t', a1, a2⟩ := C.same _ t h1
          exact (m' _).mpr ⟨t', a1, by rw [a2.offset]; exact h2⟩
    refine hperm.eq_of_pairwise (le := QueueOrder) (fun a b _ _ => queueOrder_antisymm a b) p0' ?_
    · refine List.pairwise_append.mpr ⟨p0'.filter _, ?_, ?_⟩
      · rw [List.pairwise_map]
        refine p0.imp fun {a b} h => ?_
        unfold QueueOrder at h ⊢
        exact h.imp id fun ⟨h1, h2⟩ => ⟨h1, C.order.monotone h2⟩
      · rintro x hx y hy
        obtain ⟨z, hz, rfl⟩ := List.mem_map.mp hy
        have h1 := lt0 z hz
        have h2 : T ≤ x.1 := by simpa using (List.mem_filter.mp hx).2
        left
        show z.1 < x.1
        omega
  · intro x hx
    obtain ⟨t, h1, _⟩ := (m x).mp hx
    exact (List.getElem?_eq_some_iff.mp h1).1

end

end NPE
