import Verif.Proofs.FluidMonoRounded
import Verif.Proofs.FluidOrder

/-
Transfers that wait for nothing: their demands are added in the order of offset and number.
-/

namespace NPE
open NPE.Spec NPE.Spec.Fluid

/-! ### The scan if every transfer may start -/

theorem swap_self {α : Type} {l : List α} {i : Nat} (h : i < l.length) : swap l i i = .ok l := by
  unfold swap
  rw [List.getElem?_eq_getElem h]
  simp only
  rw [List.set_getElem_self, List.set_getElem_self]

theorem pick_all {ready : Nat → Bool} {curr : Nat} {q : List (Nat × Nat)} (hr : ∀ x ∈ q, ready x.2 = true) :
    ∀ (i : Nat) (live : List Nat), i ≤ q.length →
      pick ready curr i (q, live, q.length - i) =
        (q, live ++ ((q.take i).reverse.takeWhile fun x => decide (x.1 ≤ curr)).map (·.2),
          q.length - i + ((q.take i).reverse.takeWhile fun x => decide (x.1 ≤ curr)).length) := by
  intro i
  induction i with
  | zero =>
    intro live _
    rw [pick, List.take_zero]
    simp
  | succ i ih =>
    intro live hi
    have hlt : i < q.length := by omega
    rw [pick]
    simp only
    rw [List.getElem?_eq_getElem hlt]
    simp only
    have ht : (q.take (i + 1)).reverse = q[i] :: (q.take i).reverse := by
      rw [List.take_succ_eq_append_getElem hlt, List.reverse_append]; rfl
    rw [ht]
    by_cases hle : q[i].1 ≤ curr
    · rw [if_pos hle, if_pos (hr _ (List.getElem_mem hlt)), show q.length - 1 - (q.length - (i + 1)) = i by omega,
        swap_self hlt]
      simp only
      rw [show q.length - (i + 1) + 1 = q.length - i by omega, ih _ (by omega), List.takeWhile_cons_of_pos (by simpa using hle)]
      rw [List.map_cons, List.append_assoc, List.length_cons]
      refine Prod.ext rfl (Prod.ext rfl ?_)
      show _ = _
      simp only
      omega
    · rw [if_neg hle, List.takeWhile_cons_of_neg (by simpa using hle)]
      simp

/-- In a list in ascending order, those up to a bound come first. -/
theorem takeWhile_le {l : List (Nat × Nat)} (h : l.Pairwise fun a b => a.1 ≤ b.1) (curr : Nat) :
    l.takeWhile (fun x => decide (x.1 ≤ curr)) = l.filter fun x => decide (x.1 ≤ curr) := by
  induction l with
  | nil => rfl
  | cons a l ih =>
    obtain ⟨h1, h2⟩ := List.pairwise_cons.mp h
    by_cases hle : a.1 ≤ curr
    · rw [List.takeWhile_cons_of_pos (by simpa using hle), List.filter_cons_of_pos (by simpa using hle), ih h2]
    · rw [List.takeWhile_cons_of_neg (by simpa using hle), List.filter_cons_of_neg (by simpa using hle)]
      refine (List.filter_eq_nil_iff.mpr fun x hx => ?_).symm
      have := h1 x hx
      simp only [decide_eq_true_eq]
      omega

theorem take_gt {q : List (Nat × Nat)} (h : q.Pairwise fun a b => b.1 ≤ a.1) (curr : Nat) :
    q.take (q.length - (q.filter fun x => decide (x.1 ≤ curr)).length) = q.filter fun x => !decide (x.1 ≤ curr) := by
  induction q with
  | nil => rfl
  | cons a q ih =>
    obtain ⟨h1, h2⟩ := List.pairwise_cons.mp h
    have hl := List.length_filter_le (fun x => decide (x.1 ≤ curr)) q
    by_cases hle : a.1 ≤ curr
    · have e : q.filter (fun x => decide (x.1 ≤ curr)) = q := List.filter_eq_self.mpr fun x hx => by
        have := h1 x hx
        simp only [decide_eq_true_eq]
        omega
      rw [List.filter_cons_of_pos (by simpa using hle), e, Nat.sub_self, List.take_zero,
        List.filter_cons_of_neg (by simpa using hle)]
      refine (List.filter_eq_nil_iff.mpr fun x hx => ?_).symm
      have := h1 x hx
      simp only [Bool.not_eq_true', decide_eq_false_iff_not]
      omega
    · rw [List.filter_cons_of_neg (by simpa using hle), List.filter_cons_of_pos (by simpa using hle), ← ih h2,
        List.length_cons, show q.length + 1 - (q.filter fun x => decide (x.1 ≤ curr)).length =
          q.length - (q.filter fun x => decide (x.1 ≤ curr)).length + 1 by omega, List.take_succ_cons]

/-- Two parts of a list of which the first one comes first. -/
theorem filter_parts {α : Type} {R : α → α → Prop} {P Q : α → Bool} : ∀ {l : List α}, l.Pairwise R →
    (∀ a ∈ l, ∀ b ∈ l, R a b → Q a = true → P b = false) → (∀ a ∈ l, Q a = true → P a = false) →
    l.filter P ++ l.filter Q = l.filter fun a => P a || Q a
  | [], _, _, _ => rfl
  | a :: l, h, h1, h2 => by
    obtain ⟨p1, p2⟩ := List.pairwise_cons.mp h
    have ih := filter_parts p2 (fun x hx y hy => h1 x (by simp [hx]) y (by simp [hy])) fun x hx => h2 x (by simp [hx])
    by_cases hP : P a = true
    · have hQ : ¬ Q a = true := fun hq => by rw [h2 a (by simp) hq] at hP; cases hP
      rw [List.filter_cons_of_pos hP, List.filter_cons_of_neg hQ, List.filter_cons_of_pos (by simp [hP]), List.cons_append, ih]
    · by_cases hQ : Q a = true
      · have e : l.filter P = [] := List.filter_eq_nil_iff.mpr fun x hx => by
          rw [h1 a (by simp) x (by simp [hx]) (p1 x hx) hQ]; exact Bool.noConfusion
        rw [e, List.nil_append] at ih
        rw [List.filter_cons_of_neg hP, List.filter_cons_of_pos hQ, e, List.nil_append,
          List.filter_cons_of_pos (by simp [hQ]), ih]
      · rw [List.filter_cons_of_neg hP, List.filter_cons_of_neg hQ, List.filter_cons_of_neg (by simp [hP, hQ]), ih]

/-! ### The order -/

/-- A queue of transfers that wait for nothing: each of the `n` once, in descending order of offset and number. -/
structure Line (job : Nat → Job) (n : Nat) (q : List (Nat × Nat)) : Prop where
  free : ∀ i, i < n → (job i).after = none
  sorted : q.Pairwise fun a b => b.1 < a.1 ∨ (b.1 = a.1 ∧ b.2 < a.2)
  lt : ∀ x ∈ q, x.2 < n
  all : ∀ i, i < n → ((job i).t.offset, i) ∈ q
  offs : ∀ x ∈ q, x.1 = (job x.2).t.offset

def Spec.Fluid.Prog.isWaiting : Prog → Bool
  | .waiting => true
  | _ => false

/-- The transfers of a queue in the order in which they begin. -/
def lineOf (q : List (Nat × Nat)) : List Nat := q.reverse.map (·.2)

theorem advance_waits {fl : ℚ → ℚ} {job : Nat → Job} {cpt : Nat} {speed : Speed} {curr i : Nat} {σ : Fluid.State} :
    (advance fl job cpt speed curr σ i).isWaiting = (σ i).isWaiting ∧
    ((advance fl job cpt speed curr σ i).isActive = true → (σ i).isActive = true) := by
  unfold Fluid.advance
  cases h : σ i with
  | waiting => exact ⟨rfl, id⟩
  | finished c e => exact ⟨rfl, id⟩
  | active c m =>
    simp only
    split
    · exact ⟨rfl, fun _ => rfl⟩
    · exact ⟨rfl, fun _ => rfl⟩

theorem start_waits {job : Nat → Job} {curr i : Nat} {σ : Fluid.State} (h : (job i).after = none) :
    (Fluid.start job curr σ i).isWaiting = ((σ i).isWaiting && !decide ((job i).t.offset ≤ curr)) ∧
    (Fluid.start job curr σ i).isActive = ((σ i).isActive || ((σ i).isWaiting && decide ((job i).t.offset ≤ curr))) := by
  cases hσ : σ i with
  | waiting =>
    unfold Fluid.start
    rw [begins_free h hσ]
    by_cases hle : (job i).t.offset ≤ curr
    · rw [if_pos hle]; simp [Prog.isWaiting, Prog.isActive, hle]
    · rw [if_neg hle, hσ]; simp [Prog.isWaiting, Prog.isActive, hle]
  | active c m =>
    rw [start_other (by rw [hσ]; exact Prog.noConfusion), hσ]
    simp [Prog.isWaiting, Prog.isActive]
  | finished c e =>
    rw [start_other (by rw [hσ]; exact Prog.noConfusion), hσ]
    simp [Prog.isWaiting, Prog.isActive]

section
variable {fp : FP} {dev : Device} {job : Nat → Job} {n cpt : Nat} {q0 : List (Nat × Nat)}

theorem Line.desc (L : Line job n q0) : q0.Pairwise fun a b => b.1 ≤ a.1 :=
  L.sorted.imp fun h => by omega

theorem Line.asc (L : Line job n q0) : q0.reverse.Pairwise fun a b => a.1 ≤ b.1 :=
  List.pairwise_reverse.mpr L.desc

/-- What the plan holds after `k` timesteps. -/
structure Line.Holds (n cpt : Nat) (job : Nat → Job) (q0 : List (Nat × Nat)) (k : Nat) (p : Plan) : Prop where
  queue : p.queue = q0.filter fun x => (p.σ x.2).isWaiting
  live : p.live = (q0.reverse.filter fun x => (p.σ x.2).isActive).map (·.2)
  late : ∀ i, i < n → (p.σ i).isWaiting = true → k ≠ 0 → k * cpt < (job i).t.offset
  early : ∀ i, i < n → (p.σ i).isWaiting = false → (job i).t.offset ≤ k * cpt ∧ k ≠ 0

theorem Line.picked (L : Line job n q0) {k : Nat} {p : Plan} (H : Line.Holds n cpt job q0 k p) :
    p.picked job n ((k + 1) * cpt) =
      (p.queue,
        (q0.reverse.filter fun x => (Fluid.start job ((k + 1) * cpt) p.σ x.2).isActive).map (·.2),
        (p.queue.filter fun x => decide (x.1 ≤ (k + 1) * cpt)).length) := by
  unfold Plan.picked
  have hsub : ∀ x ∈ p.queue, x ∈ q0 := fun x hx => by
    rw [H.queue] at hx; exact (List.mem_filter.mp hx).1
  have hr : ∀ x ∈ p.queue, readyIn job n ((k + 1) * cpt) p.σ x.2 = true := by
    intro x hx
    have hlt := L.lt x (hsub x hx)
    unfold readyIn
    rw [L.free _ hlt]
    simp [hlt]
  have hq : p.queue.Pairwise fun a b => b.1 ≤ a.1 := by rw [H.queue]; exact L.desc.filter _
  have := pick_all (curr := (k + 1) * cpt) hr p.queue.length p.live le_rfl
  rw [Nat.sub_self, List.take_length, takeWhile_le (List.pairwise_reverse.mpr hq), List.filter_reverse] at this
  rw [this, Nat.zero_add, List.length_reverse]
  refine Prod.ext rfl (Prod.ext ?_ rfl)
  show p.live ++ _ = _
  rw [H.live, H.queue, List.filter_filter, ← List.filter_reverse, ← List.map_append]
  congr 1
  rw [filter_parts L.asc]
  · refine List.filter_congr fun x hx => ?_
    have hm := List.mem_reverse.mp hx
    rw [(start_waits (L.free _ (L.lt x hm))).2, L.offs x hm, Bool.and_comm]
  · intro a ha b hb hab hw
    have ha := List.mem_reverse.mp ha
    have hb := List.mem_reverse.mp hb
    rw [Bool.and_eq_true] at hw
    have h1 := H.late _ (L.lt a ha)
    cases hact : (p.σ b.2).isActive with
    | false => rfl
    | true =>
      exfalso
      have hnw : (p.σ b.2).isWaiting = false := by
        cases hb2 : p.σ b.2 with
        | waiting => rw [hb2] at hact; cases hact
        | active _ _ => rfl
        | finished _ _ => rfl
      obtain ⟨h2, h3⟩ := H.early _ (L.lt b hb) hnw
      have h4 := h1 hw.2 h3
      rw [← L.offs a ha] at h4
      rw [← L.offs b hb] at h2
      omega
  · intro a _ hw
    rw [Bool.and_eq_true] at hw
    cases h : p.σ a.2 with
    | waiting => rfl
    | active _ _ => rw [h] at hw; exact absurd hw.2 Bool.noConfusion
    | finished _ _ => rfl

theorem Line.holds (L : Line job n q0) : ∀ k, Line.Holds n cpt job q0 k (plan fp dev job n cpt q0 k) := by
  intro k
  induction k with
  | zero =>
    refine ⟨?_, ?_, fun _ _ _ h => absurd rfl h, fun i _ h => ?_⟩
    · exact (List.filter_eq_self.mpr fun x _ => rfl).symm
    · have : (q0.reverse.filter fun x => ((plan fp dev job n cpt q0 0).σ x.2).isActive) = [] :=
        List.filter_eq_nil_iff.mpr fun x _ => Bool.noConfusion
      rw [this]; rfl
    · cases h
  | succ k ih =>
    have e := L.picked ih
    have eq : (plan fp dev job n cpt q0 (k + 1)).queue =
        (((plan fp dev job n cpt q0 k).picked job n ((k + 1) * cpt)).1.take
          (((plan fp dev job n cpt q0 k).picked job n ((k + 1) * cpt)).1.length -
            ((plan fp dev job n cpt q0 k).picked job n ((k + 1) * cpt)).2.2)) := rfl
    have el : (plan fp dev job n cpt q0 (k + 1)).live =
        ((plan fp dev job n cpt q0 k).picked job n ((k + 1) * cpt)).2.1.filter fun i =>
          ((plan fp dev job n cpt q0 (k + 1)).σ i).isActive := rfl
    have eσ : ∀ i, ∃ sp : Speed, (plan fp dev job n cpt q0 (k + 1)).σ i =
        advance fp.f32.fl job cpt sp ((k + 1) * cpt) (Fluid.start job ((k + 1) * cpt) (plan fp dev job n cpt q0 k).σ) i :=
      fun i => ⟨_, rfl⟩
    rw [e] at eq el
    simp only at eq el
    have hw : ∀ i, i < n → ((plan fp dev job n cpt q0 (k + 1)).σ i).isWaiting =
        (((plan fp dev job n cpt q0 k).σ i).isWaiting && !decide ((job i).t.offset ≤ (k + 1) * cpt)) := by
      intro i hi
      obtain ⟨sp, es⟩ := eσ i
      rw [es, advance_waits.1, (start_waits (L.free i hi)).1]
    have ha : ∀ i, ((plan fp dev job n cpt q0 (k + 1)).σ i).isActive = true →
        (Fluid.start job ((k + 1) * cpt) (plan fp dev job n cpt q0 k).σ i).isActive = true := by
      intro i h
      obtain ⟨sp, es⟩ := eσ i
      rw [es] at h
      exact advance_waits.2 h
    have hmul : (k + 1) * cpt = k * cpt + cpt := by ring
    refine ⟨?_, ?_, ?_, ?_⟩
    · have hq : (plan fp dev job n cpt q0 k).queue.Pairwise fun a b => b.1 ≤ a.1 := by rw [ih.queue]; exact L.desc.filter _
      rw [eq, take_gt hq, ih.queue, List.filter_filter]
      refine List.filter_congr fun x hx => ?_
      rw [hw _ (L.lt x hx), ← L.offs x hx, Bool.and_comm]
    · rw [el, List.filter_map, List.filter_filter]
      congr 1
      refine List.filter_congr fun x _ => ?_
      show (((plan fp dev job n cpt q0 (k + 1)).σ x.2).isActive && _) = _
      cases h : ((plan fp dev job n cpt q0 (k + 1)).σ x.2).isActive with
      | false => rfl
      | true => rw [ha _ h]; rfl
    · intro i hi h _
      rw [hw i hi, Bool.and_eq_true] at h
      simpa using h.2
    · intro i hi h
      rw [hw i hi, Bool.and_eq_false_iff] at h
      refine ⟨?_, by omega⟩
      rcases h with h | h
      · have := (ih.early i hi h).1
        omega
      · simpa using h

/-- Demands are added in the order of offsets and numbers. -/
theorem Line.order_eq (L : Line job n q0) (hpos : 0 < cpt) (k : Nat) :
    planOrder fp dev job n cpt q0 ((k + 1) * cpt) = (lineOf q0).filter fun i =>
      (Fluid.start job ((k + 1) * cpt)
        (run fp.f32.fl job cpt (sharedIn fp dev job cpt (planOrder fp dev job n cpt q0)) k) i).isActive := by
  unfold planOrder lineOf
  rw [Nat.mul_div_cancel _ hpos, Nat.add_sub_cancel, L.picked (L.holds k), List.filter_map]
  have := run_plan fp dev job n hpos q0 k
  unfold planOrder at this
  rw [this]
  rfl

theorem Line.mem (L : Line job n q0) {i : Nat} : i ∈ lineOf q0 ↔ i < n := by
  unfold lineOf
  constructor
  · intro h
    obtain ⟨x, hx, rfl⟩ := List.mem_map.mp h
    exact L.lt x (List.mem_reverse.mp hx)
  · intro h
    exact List.mem_map.mpr ⟨_, List.mem_reverse.mpr (L.all i h), rfl⟩

/-- Earlier in the queue. -/
def Ahead (job : Nat → Job) (i j : Nat) : Prop :=
  (job i).t.offset < (job j).t.offset ∨ ((job i).t.offset = (job j).t.offset ∧ i < j)

theorem Line.ahead (L : Line job n q0) : (lineOf q0).Pairwise (Ahead job) := by
  unfold lineOf
  rw [List.pairwise_map]
  refine List.Pairwise.imp_of_mem ?_ (List.pairwise_reverse.mpr L.sorted)
  intro a b ha hb h
  have ea := L.offs a (List.mem_reverse.mp ha)
  have eb := L.offs b (List.mem_reverse.mp hb)
  unfold Ahead
  rw [← ea, ← eb]
  exact h

theorem ahead_nodup {l : List Nat} (h : l.Pairwise (Ahead job)) : l.Nodup :=
  h.imp fun {a b} hab e => by subst e; unfold Ahead at hab; omega

theorem ahead_unique {l l' : List Nat} (h : l.Pairwise (Ahead job)) (h' : l'.Pairwise (Ahead job))
    (hm : ∀ i, i ∈ l ↔ i ∈ l') : l = l' := by
  have hp : l.Perm l' := (List.perm_ext_iff_of_nodup (ahead_nodup h) (ahead_nodup h')).mpr hm
  refine hp.eq_of_pairwise (le := Ahead job) (fun a b _ _ h1 h2 => ?_) h h'
  unfold Ahead at h1 h2
  omega

end
end NPE
