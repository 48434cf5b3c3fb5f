import Verif.Proofs.FluidShiftRounded

/-
Later schedules, with rounding and congestion: the queue of the later run is the queue of the earlier one, later, so that
the demands of the active transfers are added in the same order.
-/

namespace NPE
open NPE.Spec NPE.Spec.Fluid

/-! ### The scan -/

/-- An entry of the queue, later. -/
def lateX (S : Nat) (x : Nat × Nat) : Nat × Nat := (x.1 + S, x.2)

theorem swap_of_lt {α : Type} {l : List α} {i j : Nat} (hi : i < l.length) (hj : j < l.length) :
    swap l i j = .ok ((l.set i l[j]).set j l[i]) := by
  unfold swap
  rw [List.getElem?_eq_getElem hi, List.getElem?_eq_getElem hj]

theorem swap_map {α β : Type} (f : α → β) (l : List α) (i j : Nat) :
    swap (l.map f) i j = match swap l i j with
      | .ok q => .ok (q.map f)
      | _ => .ub := by
  unfold swap
  rw [List.getElem?_map, List.getElem?_map]
  cases l[i]? with
  | none => rfl
  | some a =>
    cases l[j]? with
    | none => rfl
    | some b => simp [List.map_set]

/-- The scan of a later queue. -/
theorem pick_late (ready : Nat → Bool) (curr S : Nat) : ∀ (i : Nat) (q : List (Nat × Nat)) (live : List Nat) (k : Nat),
    pick ready (curr + S) i (q.map (lateX S), live, k) =
      ((pick ready curr i (q, live, k)).1.map (lateX S), (pick ready curr i (q, live, k)).2.1,
        (pick ready curr i (q, live, k)).2.2) := by
  intro i
  induction i with
  | zero => intro q live k; rfl
  | succ i ih =>
    intro q live k
    rw [pick, pick]
    simp only
    rw [List.getElem?_map]
    cases hq : q[i]? with
    | none => rfl
    | some x =>
      simp only [Option.map_some]
      by_cases hle : x.1 ≤ curr
      · rw [if_pos hle, if_pos (show (lateX S x).1 ≤ curr + S by unfold lateX; simp only; omega)]
        show (if ready x.2 = true then _ else _) = _
        by_cases hr : ready x.2 = true
        · rw [if_pos hr, if_pos hr, List.length_map, swap_map]
          cases hs : swap q (q.length - 1 - k) i with
          | ok q2 => exact ih q2 _ _
          | exc _ => rfl
          | std _ => rfl
          | exit => rfl
          | ub => rfl
          | diverge => rfl
        · rw [if_neg hr, if_neg hr]
          exact ih q live k
      · rw [if_neg hle, if_neg (show ¬ (lateX S x).1 ≤ curr + S by unfold lateX; simp only; omega)]

theorem pick_length (ready : Nat → Bool) (curr : Nat) : ∀ (i : Nat) (s : List (Nat × Nat) × List Nat × Nat),
    i + s.2.2 ≤ s.1.length →
    (pick ready curr i s).1.length = s.1.length ∧ (pick ready curr i s).2.2 ≤ s.1.length := by
  intro i
  induction i with
  | zero => intro s h; exact ⟨rfl, by rw [pick]; omega⟩
  | succ i ih =>
    intro s h
    rw [pick]
    have hi : i < s.1.length := by omega
    rw [List.getElem?_eq_getElem hi]
    simp only
    split
    · split
      · rw [swap_of_lt (by omega) hi]
        simp only
        have := ih ((s.1.set (s.1.length - 1 - s.2.2) s.1[i]).set i (s.1[s.1.length - 1 - s.2.2]'(by omega)),
          s.2.1 ++ [s.1[i].2], s.2.2 + 1) (by simp only [List.length_set]; omega)
        simpa only [List.length_set] using this
      · exact ih s (by omega)
    · exact ⟨rfl, by omega⟩

/-- The scan without the entries that have been taken out. -/
theorem pick_take (ready : Nat → Bool) (curr k : Nat) : ∀ (i : Nat) (q : List (Nat × Nat)) (live : List Nat) (j : Nat),
    i + j + k ≤ q.length →
    pick ready curr i (q.take (q.length - k), live, j) =
      ((pick ready curr i (q, live, k + j)).1.take (q.length - k), (pick ready curr i (q, live, k + j)).2.1,
        (pick ready curr i (q, live, k + j)).2.2 - k) := by
  intro i
  induction i with
  | zero => intro q live j h; rw [pick, pick]; simp
  | succ i ih =>
    intro q live j h
    have hi : i < q.length := by omega
    have hi2 : i < (q.take (q.length - k)).length := by rw [List.length_take]; omega
    rw [pick, pick]
    simp only
    rw [List.getElem?_eq_getElem hi, List.getElem?_eq_getElem hi2, List.getElem_take]
    simp only
    by_cases hle : q[i].1 ≤ curr
    · rw [if_pos hle, if_pos hle]
      by_cases hr : ready q[i].2 = true
      · rw [if_pos hr, if_pos hr, swap_of_lt (i := q.length - 1 - (k + j)) (by omega) hi, swap_of_lt (by omega) hi2]
        simp only
        have e : (q.take (q.length - k)).length - 1 - j = q.length - 1 - (k + j) := by rw [List.length_take]; omega
        have := ih ((q.set (q.length - 1 - (k + j)) q[i]).set i (q[q.length - 1 - (k + j)]'(by omega)))
          (live ++ [q[i].2]) (j + 1) (by simp only [List.length_set]; omega)
        rw [List.length_set, List.length_set, List.take_set, List.take_set, ← Nat.add_assoc] at this
        rw [← this]
        congr 2
        rw [List.getElem_take, List.getElem_take]
        simp only [e]
      · rw [if_neg hr, if_neg hr]
        exact ih q live j (by omega)
    · rw [if_neg hle, if_neg hle]
      simp

/-- A scan up to an earlier cycle is the first part of a scan; it leaves those that may not start on top. -/
theorem pick_part (ready : Nat → Bool) {c1 c2 : Nat} (hc : c1 ≤ c2) : ∀ (i : Nat) (s : List (Nat × Nat) × List Nat × Nat),
    i + s.2.2 ≤ s.1.length →
    (∀ p x, i ≤ p → p + s.2.2 < s.1.length → s.1[p]? = some x → x.1 ≤ c1 ∧ ready x.2 = false) →
    ∃ m, m ≤ i ∧ pick ready c2 i s = pick ready c2 m (pick ready c1 i s) ∧
      m + (pick ready c1 i s).2.2 ≤ s.1.length ∧
      ∀ p x, m ≤ p → p + (pick ready c1 i s).2.2 < s.1.length → (pick ready c1 i s).1[p]? = some x →
        x.1 ≤ c1 ∧ ready x.2 = false := by
  intro i
  induction i with
  | zero => intro s h hs; exact ⟨0, le_refl _, rfl, by rw [pick]; omega, by rw [pick]; exact hs⟩
  | succ i ih =>
    intro s h hs
    have hi : i < s.1.length := by omega
    have ey : ∀ c, s.1[i].1 ≤ c → ready s.1[i].2 = true → pick ready c (i + 1) s =
        pick ready c i ((s.1.set (s.1.length - 1 - s.2.2) s.1[i]).set i (s.1[s.1.length - 1 - s.2.2]'(by omega)),
          s.2.1 ++ [s.1[i].2], s.2.2 + 1) := by
      intro c hle hr
      rw [pick, List.getElem?_eq_getElem hi]
      simp only
      rw [if_pos hle, if_pos hr, swap_of_lt (by omega) hi]
    have en : ∀ c, s.1[i].1 ≤ c → ¬ ready s.1[i].2 = true → pick ready c (i + 1) s = pick ready c i s := by
      intro c hle hr
      rw [pick, List.getElem?_eq_getElem hi]
      simp only
      rw [if_pos hle, if_neg hr]
    by_cases hle : s.1[i].1 ≤ c1
    · by_cases hr : ready s.1[i].2 = true
      · rw [ey c1 hle hr, ey c2 (le_trans hle hc) hr]
        obtain ⟨m, m1, m2, m3, m4⟩ := ih ((s.1.set (s.1.length - 1 - s.2.2) s.1[i]).set i
          (s.1[s.1.length - 1 - s.2.2]'(by omega)), s.2.1 ++ [s.1[i].2], s.2.2 + 1)
          (by simp only [List.length_set]; omega) (by
            intro p x h1 h2 h3
            simp only [List.length_set] at h2 h3
            rw [List.getElem?_set] at h3
            by_cases hp : i = p
            · rw [if_pos hp, if_pos (by rw [List.length_set]; omega)] at h3
              rw [← Option.some.inj h3]
              exact hs (s.1.length - 1 - s.2.2) _ (by omega) (by omega) (List.getElem?_eq_getElem _)
            · rw [if_neg hp, List.getElem?_set, if_neg (by omega)] at h3
              exact hs p x (by omega) (by omega) h3)
        simp only [List.length_set] at m3 m4
        exact ⟨m, by omega, m2, m3, m4⟩
      · rw [en c1 hle hr, en c2 (le_trans hle hc) hr]
        obtain ⟨m, m1, m2, m3, m4⟩ := ih s (by omega) (by
          intro p x h1 h2 h3
          by_cases hp : i = p
          · subst hp
            rw [List.getElem?_eq_getElem hi] at h3
            rw [← Option.some.inj h3]
            exact ⟨hle, by simpa using hr⟩
          · exact hs p x (by omega) h2 h3)
        exact ⟨m, by omega, m2, m3, m4⟩
    · have e : pick ready c1 (i + 1) s = s := by
        rw [pick, List.getElem?_eq_getElem hi]
        simp only
        rw [if_neg hle]
      rw [e]
      exact ⟨i + 1, le_refl _, rfl, h, hs⟩

/-- Those that may not start are passed over. -/
theorem pick_skip (ready : Nat → Bool) (curr : Nat) {m : Nat} : ∀ (i : Nat) (s : List (Nat × Nat) × List Nat × Nat), m ≤ i →
    i ≤ s.1.length → (∀ p x, m ≤ p → p < i → s.1[p]? = some x → x.1 ≤ curr ∧ ready x.2 = false) →
    pick ready curr i s = pick ready curr m s := by
  intro i
  induction i with
  | zero => intro s h _ _; rw [Nat.le_zero.mp h]
  | succ i ih =>
    intro s h hl hs
    by_cases hm : m = i + 1
    · rw [hm]
    · have hi : i < s.1.length := by omega
      have := hs i _ (by omega) (by omega) (List.getElem?_eq_getElem hi)
      rw [pick, List.getElem?_eq_getElem hi]
      simp only
      rw [if_pos this.1, if_neg (by rw [this.2]; exact Bool.noConfusion)]
      exact ih s (by omega) (by omega) fun p x h1 h2 h3 => hs p x h1 (by omega) h3

/-- Two scans do the same as one. -/
theorem pick_twice (ready : Nat → Bool) {c1 c2 : Nat} (hc : c1 ≤ c2) (q : List (Nat × Nat)) :
    let r := pick ready c2 q.length (q, [], 0)
    let r1 := pick ready c1 q.length (q, [], 0)
    let q1 := r1.1.take (r1.1.length - r1.2.2)
    let r2 := pick ready c2 q1.length (q1, r1.2.1, 0)
    r2.2.1 = r.2.1 ∧ r2.1.take (r2.1.length - r2.2.2) = r.1.take (r.1.length - r.2.2) := by
  intro r r1 q1 r2
  obtain ⟨l1, l2⟩ := pick_length ready c1 q.length (q, [], 0) (by simp)
  obtain ⟨n1, n2⟩ := pick_length ready c2 q.length (q, [], 0) (by simp)
  obtain ⟨m, m1, m2, m3, m4⟩ := pick_part ready hc q.length (q, [], 0) (by simp) (by
    intro p x h1 h2 h3; simp only at h2; omega)
  change r1.1.length = q.length at l1
  change r1.2.2 ≤ q.length at l2
  change r.1.length = q.length at n1
  change r.2.2 ≤ q.length at n2
  change r = pick ready c2 m r1 at m2
  change m + r1.2.2 ≤ q.length at m3
  have hq1 : q1.length = q.length - r1.2.2 := by
    show (r1.1.take _).length = _
    rw [List.length_take, l1]; omega
  have e1 : r2 = pick ready c2 m (q1, r1.2.1, 0) := by
    refine pick_skip ready c2 q1.length _ (by omega) (le_refl _) ?_
    intro p x h1 h2 h3
    have h3 : (r1.1.take (r1.1.length - r1.2.2))[p]? = some x := h3
    rw [List.getElem?_take_of_lt (by omega)] at h3
    obtain ⟨a, b⟩ := m4 p x h1 (by show p + r1.2.2 < q.length; omega) h3
    exact ⟨le_trans a hc, b⟩
  have e2 := pick_take ready c2 r1.2.2 m r1.1 r1.2.1 0 (by omega)
  rw [Nat.add_zero, show (r1.1, r1.2.1, r1.2.2) = r1 from rfl, ← m2] at e2
  have e3 : r2 = (r.1.take (r1.1.length - r1.2.2), r.2.1, r.2.2 - r1.2.2) := e1.trans e2
  rw [e3]
  refine ⟨rfl, ?_⟩
  simp only
  have hge : r1.2.2 ≤ r.2.2 := by
    have : ∀ (i : Nat) (s : List (Nat × Nat) × List Nat × Nat), s.2.2 ≤ (pick ready c2 i s).2.2 := by
      intro i
      induction i with
      | zero => intro s; exact le_refl _
      | succ i ih =>
        intro s
        rw [pick]
        split
        · exact le_refl _
        · split
          · split
            · split
              · exact le_trans (Nat.le_succ _) (ih (_, _, s.2.2 + 1))
              · exact le_refl _
            · exact ih s
          · exact le_refl _
    rw [m2]
    exact this m r1
  rw [List.length_take, List.take_take]
  congr 1
  omega

theorem pick_none (ready : Nat → Bool) {curr : Nat} (i : Nat) {q : List (Nat × Nat)} {live : List Nat} {k : Nat}
    (h : ∀ x ∈ q, curr < x.1) : pick ready curr i (q, live, k) = (q, live, k) := by
  cases i with
  | zero => rfl
  | succ i =>
    rw [pick]
    simp only
    cases hq : q[i]? with
    | none => rfl
    | some x =>
      simp only
      have := h x (List.mem_of_getElem? hq)
      rw [if_neg (by omega)]

theorem pick_due {ready : Nat → Bool} {curr : Nat} : ∀ (m : Nat) (s : List (Nat × Nat) × List Nat × Nat),
    ∀ j ∈ (pick ready curr m s).2.1, j ∈ s.2.1 ∨ (ready j = true ∧ ∃ x ∈ s.1, x.2 = j ∧ x.1 ≤ curr) := by
  intro m
  induction m with
  | zero => intro s j hj; exact Or.inl hj
  | succ i ih =>
    intro s j hj
    rw [pick] at hj
    cases hq : s.1[i]? with
    | none => rw [hq] at hj; exact Or.inl hj
    | some x =>
      have hx := List.mem_of_getElem? hq
      rw [hq] at hj
      simp only at hj
      split at hj
      · rename_i hle
        split at hj
        · rename_i hr
          cases hsw : swap s.1 (s.1.length - 1 - s.2.2) i with
          | ok q =>
            rw [hsw] at hj
            simp only at hj
            rcases ih _ j hj with h | ⟨h, y, hy, h2, h3⟩
            · rcases List.mem_append.mp h with h | h
              · exact Or.inl h
              · rw [List.mem_singleton.mp h]; exact Or.inr ⟨hr, x, hx, rfl, hle⟩
            · refine Or.inr ⟨h, y, ?_, h2, h3⟩
              unfold swap at hsw
              rw [hq] at hsw
              cases ha : s.1[s.1.length - 1 - s.2.2]? with
              | none => rw [ha] at hsw; cases hsw
              | some a =>
                rw [ha] at hsw
                have hsw := Out.ok.inj hsw
                rw [← hsw] at hy
                rcases List.mem_or_eq_of_mem_set hy with hy | rfl
                · rcases List.mem_or_eq_of_mem_set hy with hy | rfl
                  · exact hy
                  · exact hx
                · exact List.mem_of_getElem? ha
          | exc _ => rw [hsw] at hj; exact Or.inl hj
          | std _ => rw [hsw] at hj; exact Or.inl hj
          | exit => rw [hsw] at hj; exact Or.inl hj
          | ub => rw [hsw] at hj; exact Or.inl hj
          | diverge => rw [hsw] at hj; exact Or.inl hj
        · exact ih s j hj
      · exact Or.inl hj

/-! ### The plan -/

section
variable {fp : FP} {dev : Device} {job job' : Nat → Job} {cpt n q S : Nat}

theorem Later.readyIn_eq (L : Later n S job job') {σ σ' : Fluid.State} {curr b : Nat} (h : ∀ i, i < n → σ' i = late S (σ i))
    (hin : ∀ i, i < n → InTime curr b (σ i))
    (hd : ∀ i, i < n → ∀ j d, (job i).after = some (j, d) → b + d + S < 4294967296) :
    readyIn job' n (curr + S) σ' = readyIn job n curr σ := by
  funext i
  unfold readyIn
  by_cases hi : i < n
  · rw [L.after i hi]
    cases ha : (job i).after with
    | none => rfl
    | some p =>
      obtain ⟨j, d⟩ := p
      simp only
      have hj := L.closed i hi j d ha
      rw [h j hj]
      cases hσ : σ j with
      | waiting => rfl
      | active c m => rfl
      | finished c e =>
        have h1 := hin j hj
        rw [hσ] at h1
        have h1 : c ≤ curr ∧ e ≤ b := h1
        have h2 := hd i hi j d ha
        show (decide (i < n) && decide ((e + S + d) % 4294967296 ≤ curr + S)) =
          (decide (i < n) && decide ((e + d) % 4294967296 ≤ curr))
        rw [Nat.mod_eq_of_lt (by omega), Nat.mod_eq_of_lt (by omega)]
        congr 1
        refine decide_eq_decide.mpr ?_
        omega
  · simp only [hi, decide_false, Bool.false_and]

theorem readyIn_fresh (hcl : ∀ i, i < n → ∀ j d, (job i).after = some (j, d) → j < n) {σ : Fluid.State} (curr : Nat)
    (h : ∀ i, i < n → ∀ c e, σ i ≠ .finished c e) :
    readyIn job n curr σ = fun i => decide (i < n) && (job i).after.isNone := by
  funext i
  unfold readyIn
  by_cases hi : i < n
  · cases ha : (job i).after with
    | none => rfl
    | some p =>
      obtain ⟨j, d⟩ := p
      simp only
      have hj := h j (hcl i hi j d ha)
      cases hσ : σ j with
      | waiting => rfl
      | active c m => rfl
      | finished c e => exact absurd hσ (hj c e)
  · simp only [hi, decide_false, Bool.false_and]

theorem Later.loadIn_eq (L : Later n S job job') {curr : Nat} (hcurr : cpt ≤ curr) {σ σ' : Fluid.State}
    (h : ∀ i, i < n → σ' i = late S (σ i)) {order : List Nat} (ho : ∀ j ∈ order, j < n) {w : TState → Nat}
    (hw : ∀ i, i < n → w ((job' i).began 0) = w ((job i).began 0)) :
    loadIn fp dev job' cpt order w (curr + S) σ' = loadIn fp dev job cpt order w curr σ := by
  unfold loadIn
  congr 1
  rw [List.flatMap_def, List.flatMap_def]
  congr 1
  refine List.map_congr_left fun j hj => ?_
  have hlt := ho j hj
  rw [hw j hlt]
  congr 1
  unfold demand
  rw [h j hlt]
  cases σ j with
  | waiting => rfl
  | finished c e => rfl
  | active c m =>
    show fp.f32.fl (fp.f32.fl (fp.f32.fl ((curr + S - max (curr + S - cpt) (c + S) : ℕ) : ℚ) / _) * own fp dev (job' j).t) = _
    rw [L.data j hlt, show curr + S - max (curr + S - cpt) (c + S) = curr - max (curr - cpt) c by omega]
    rfl

theorem Later.sharedIn_eq (L : Later n S job job') {curr : Nat} (hcurr : cpt ≤ curr) {σ σ' : Fluid.State}
    (h : ∀ i, i < n → σ' i = late S (σ i)) {order order' : Nat → List Nat} (he : order' (curr + S) = order curr)
    (ho : ∀ j ∈ order curr, j < n) {i : Nat} (hi : i < n) :
    sharedIn fp dev job' cpt order' (curr + S) σ' i = sharedIn fp dev job cpt order curr σ i := by
  have hl : ∀ l, loadIn fp dev job' cpt (order curr) (fun u => u.route.count l) (curr + S) σ' =
      loadIn fp dev job cpt (order curr) (fun u => u.route.count l) curr σ :=
    fun l => L.loadIn_eq hcurr h ho fun i hi => by unfold Job.began; simp only; rw [L.route i hi]
  have hs : ∀ noc c, loadIn fp dev job' cpt (order curr) (leaves dev noc c) (curr + S) σ' =
      loadIn fp dev job cpt (order curr) (leaves dev noc c) curr σ :=
    fun noc c => L.loadIn_eq hcurr h ho fun i hi => by unfold Job.began leaves; simp only; rw [L.data i hi]; rfl
  have hk : ∀ noc c, loadIn fp dev job' cpt (order curr) (reaches dev noc c) (curr + S) σ' =
      loadIn fp dev job cpt (order curr) (reaches dev noc c) curr σ :=
    fun noc c => L.loadIn_eq hcurr h ho fun i hi => by unfold Job.began reaches; simp only; rw [L.data i hi]; rfl
  unfold sharedIn
  simp only [he, hl, hs, hk]
  rw [L.data i hi, L.route i hi]
  rfl

/-- Before the shift is over, the queue is as it was. -/
theorem Later.plan_before {q0 : List (Nat × Nat)} (hpos : 0 < cpt) (k : Nat) (hk : k < q) :
    (plan fp dev job' n cpt (q0.map (lateX (q * cpt))) k).queue = q0.map (lateX (q * cpt)) ∧
    (plan fp dev job' n cpt (q0.map (lateX (q * cpt))) k).live = [] := by
  induction k with
  | zero => exact ⟨rfl, rfl⟩
  | succ k ih =>
    obtain ⟨a, b⟩ := ih (by omega)
    have hlt : (k + 1) * cpt < q * cpt := Nat.mul_lt_mul_of_pos_right hk hpos
    have e : (plan fp dev job' n cpt (q0.map (lateX (q * cpt))) k).picked job' n ((k + 1) * cpt) =
        (q0.map (lateX (q * cpt)), [], 0) := by
      unfold Plan.picked
      rw [a, b]
      refine pick_none _ _ fun x hx => ?_
      obtain ⟨y, _, rfl⟩ := List.mem_map.mp hx
      unfold lateX
      simp only
      omega
    constructor
    · show List.take _ _ = _
      rw [e]
      simp
    · show List.filter _ _ = _
      rw [e]
      rfl

/-- What remains in the queue after a scan. -/
def rest (r : List (Nat × Nat) × List Nat × Nat) : List (Nat × Nat) := r.1.take (r.1.length - r.2.2)

/-- The scans of the later run are those of the earlier one. -/
theorem Later.picked_eq (L : Later n (q * cpt) job job') (hpos : 0 < cpt) {q0 : List (Nat × Nat)}
    (hq0 : ∀ x ∈ q0, x.1 = (job x.2).t.offset)
    (hbytes : ∀ i, i < n → 0 < (job i).t.totalBytes) (k : Nat)
    (hK : (k + 2) * cpt + q * cpt + 2 ≤ 16777216)
    (hd : ∀ i, i < n → ∀ j d, (job i).after = some (j, d) → (k + 2) * cpt + d + q * cpt + 1 < 4294967296) :
    ((plan fp dev job' n cpt (q0.map (lateX (q * cpt))) (k + q)).picked job' n ((k + 1) * cpt + q * cpt)).2.1 =
      ((plan fp dev job n cpt q0 k).picked job n ((k + 1) * cpt)).2.1 ∧
    rest ((plan fp dev job' n cpt (q0.map (lateX (q * cpt))) (k + q)).picked job' n ((k + 1) * cpt + q * cpt)) =
      (rest ((plan fp dev job n cpt q0 k).picked job n ((k + 1) * cpt))).map (lateX (q * cpt)) := by
  have hcl' : ∀ i, i < n → ∀ j d, (job' i).after = some (j, d) → j < n := by
    intro i hi j d ha; rw [L.after i hi] at ha; exact L.closed i hi j d ha
  have hmap : ∀ r : List (Nat × Nat) × List Nat × Nat, rest (r.1.map (lateX (q * cpt)), r.2.1, r.2.2) =
      (rest r).map (lateX (q * cpt)) := by
    intro r; unfold rest; simp [List.map_take]
  have fin : ∀ {ready : Nat → Bool} {p p' : Plan} {curr : Nat}, p'.queue = p.queue.map (lateX (q * cpt)) →
      p'.live = p.live → readyIn job' n (curr + q * cpt) p'.σ = readyIn job n curr p.σ →
      (p'.picked job' n (curr + q * cpt)).2.1 = (p.picked job n curr).2.1 ∧
      rest (p'.picked job' n (curr + q * cpt)) = (rest (p.picked job n curr)).map (lateX (q * cpt)) := by
    intro ready p p' curr h1 h2 h3
    have e : p'.picked job' n (curr + q * cpt) = ((p.picked job n curr).1.map (lateX (q * cpt)), (p.picked job n curr).2.1,
        (p.picked job n curr).2.2) := by
      unfold Plan.picked
      rw [h1, h2, h3, List.length_map, pick_late]
    rw [e]
    exact ⟨rfl, hmap _⟩
  induction k using Nat.strong_induction_on with
  | _ k ih =>
  cases k with
  | zero =>
    rw [Nat.zero_add, Nat.one_mul, Nat.zero_add]
    have e2 : (0 + 2) * cpt = 2 * cpt := by ring
    rw [e2] at hK
    cases hq : q with
    | zero =>
      subst hq
      refine fin (ready := fun _ => true) rfl rfl ?_
      rw [readyIn_fresh hcl' _ (fun _ _ _ _ => Prog.noConfusion), readyIn_fresh L.closed _ (fun _ _ _ _ => Prog.noConfusion)]
      funext i
      by_cases hi : i < n
      · rw [L.after i hi]
      · simp only [hi, decide_false, Bool.false_and]
    | succ q1 =>
      rw [← hq]
      have hb := fun k hk i hi => L.before_round (R := fp.f32) hpos (speed' := sharedIn fp dev job' cpt
        (planOrder fp dev job' n cpt (q0.map (lateX (q * cpt))))) hbytes
        (by have : (q + 2) * cpt = q * cpt + 2 * cpt := by ring
            omega) k hk i hi
      simp only [run_plan fp dev job' n hpos] at hb
      obtain ⟨a, b⟩ := Later.plan_before (fp := fp) (dev := dev) (job' := job') (n := n) (q0 := q0) (q := q) hpos q1 (by omega)
      have rdq : ∀ k, k ≤ q → ∀ curr, readyIn job' n curr (plan fp dev job' n cpt (q0.map (lateX (q * cpt))) k).σ =
          fun i => decide (i < n) && (job i).after.isNone := by
        intro k hk curr
        rw [readyIn_fresh hcl']
        · funext i
          by_cases hi : i < n
          · rw [L.after i hi]
          · simp only [hi, decide_false, Bool.false_and]
        · intro i hi c e he
          rcases hb k hk i hi with h | ⟨_, _, _, h⟩ <;> rw [he] at h <;> cases h
      have rd0 : readyIn job n cpt (plan fp dev job n cpt q0 0).σ = fun i => decide (i < n) && (job i).after.isNone :=
        readyIn_fresh L.closed _ (fun _ _ _ _ => Prog.noConfusion)
      have p1 : (plan fp dev job' n cpt (q0.map (lateX (q * cpt))) q1).picked job' n (q * cpt) =
          pick (fun i => decide (i < n) && (job i).after.isNone) (q * cpt) (q0.map (lateX (q * cpt))).length
            (q0.map (lateX (q * cpt)), [], 0) := by
        unfold Plan.picked
        rw [a, b, rdq q1 (by omega)]
      have c1 : (plan fp dev job' n cpt (q0.map (lateX (q * cpt))) q).queue =
          rest ((plan fp dev job' n cpt (q0.map (lateX (q * cpt))) q1).picked job' n (q * cpt)) := by
        subst hq; rfl
      have c2 : (plan fp dev job' n cpt (q0.map (lateX (q * cpt))) q).live =
          ((plan fp dev job' n cpt (q0.map (lateX (q * cpt))) q1).picked job' n (q * cpt)).2.1 := by
        have : (plan fp dev job' n cpt (q0.map (lateX (q * cpt))) q).live =
            ((plan fp dev job' n cpt (q0.map (lateX (q * cpt))) q1).picked job' n (q * cpt)).2.1.filter
              fun i => ((plan fp dev job' n cpt (q0.map (lateX (q * cpt))) q).σ i).isActive := by
          subst hq; rfl
        rw [this]
        refine List.filter_eq_self.mpr fun j hj => ?_
        rw [p1] at hj
        rcases pick_due _ _ j hj with h | ⟨h1, x, hx, h2, h3⟩
        · cases h
        · rw [Bool.and_eq_true, decide_eq_true_eq, Option.isNone_iff_eq_none] at h1
          obtain ⟨hjn, hfree⟩ := h1
          obtain ⟨y, hy, rfl⟩ := List.mem_map.mp hx
          have hy0 := hq0 y hy
          have h2 : y.2 = j := h2
          have h3 : y.1 + q * cpt ≤ q * cpt := h3
          rw [h2] at hy0
          have hw : ((plan fp dev job' n cpt (q0.map (lateX (q * cpt))) q).σ j).isWaiting = false := by
            have e : ∃ sp : Speed, (plan fp dev job' n cpt (q0.map (lateX (q * cpt))) q).σ j =
                advance fp.f32.fl job' cpt sp (q * cpt) (Fluid.start job' (q * cpt)
                  (plan fp dev job' n cpt (q0.map (lateX (q * cpt))) q1).σ) j := by
              subst hq; exact ⟨_, rfl⟩
            obtain ⟨sp, e⟩ := e
            rw [e, advance_waits.1, (start_waits (by rw [L.after j hjn]; exact hfree)).1]
            have ho : (job' j).t.offset = (job j).t.offset + q * cpt := by rw [L.data j hjn]; rfl
            rw [ho, Bool.and_eq_false_iff]
            right
            rw [Bool.not_eq_false', decide_eq_true_eq]
            omega
          rcases hb q (le_refl _) j hjn with h | ⟨_, _, _, h⟩
          · rw [h] at hw; cases hw
          · rw [h]; rfl
      have e : (plan fp dev job' n cpt (q0.map (lateX (q * cpt))) q).picked job' n (cpt + q * cpt) =
          pick (fun i => decide (i < n) && (job i).after.isNone) (cpt + q * cpt)
            (plan fp dev job' n cpt (q0.map (lateX (q * cpt))) q).queue.length
            ((plan fp dev job' n cpt (q0.map (lateX (q * cpt))) q).queue,
              (plan fp dev job' n cpt (q0.map (lateX (q * cpt))) q).live, 0) := by
        unfold Plan.picked
        rw [rdq q (le_refl _)]
      rw [e, c1, c2, p1]
      obtain ⟨t1, t2⟩ := pick_twice (fun i => decide (i < n) && (job i).after.isNone)
        (show q * cpt ≤ cpt + q * cpt by omega) (q0.map (lateX (q * cpt)))
      have e0 : (plan fp dev job n cpt q0 0).picked job n cpt =
          pick (fun i => decide (i < n) && (job i).after.isNone) cpt q0.length (q0, [], 0) := by
        unfold Plan.picked
        rw [rd0]
        rfl
      have el := pick_late (fun i => decide (i < n) && (job i).after.isNone) cpt (q * cpt) q0.length q0 [] 0
      rw [List.length_map, el] at t1 t2
      rw [e0, List.length_map]
      exact ⟨t1, t2.trans (hmap _)⟩
  | succ k =>
    have hk2 : (k + 1 + 2) * cpt = k * cpt + 3 * cpt := by ring
    have hkk : ∀ j, j < k + 1 → (j + 2) * cpt ≤ (k + 1 + 2) * cpt := fun j hj => Nat.mul_le_mul_right _ (by omega)
    have ih' := fun j (hj : j < k + 1) => ih j hj (by have := hkk j hj; omega)
      (fun i hi j' d ha => by have := hkk j hj; have := hd i hi j' d ha; omega)
    have hst : ∀ i, i < n → (plan fp dev job' n cpt (q0.map (lateX (q * cpt))) (k + 1 + q)).σ i =
        late (q * cpt) ((plan fp dev job n cpt q0 (k + 1)).σ i) := by
      intro i hi
      rw [← run_plan fp dev job' n hpos, ← run_plan fp dev job n hpos]
      refine L.run_eq_round (K := k + 1) hpos (fun j hj hA i hi => ?_) hbytes hK hd (k + 1) (by omega) (le_refl _) i hi
      have o1 : planOrder fp dev job n cpt q0 ((j + 1) * cpt) =
          ((plan fp dev job n cpt q0 j).picked job n ((j + 1) * cpt)).2.1 := by
        unfold planOrder
        rw [Nat.mul_div_cancel _ hpos, Nat.add_sub_cancel]
      refine L.sharedIn_eq (by have : (j + 1) * cpt = j * cpt + cpt := by ring
                               omega) hA ?_ ?_ hi
      · rw [o1, ← (ih' j hj).1]
        unfold planOrder
        rw [show ((j + 1) * cpt + q * cpt) / cpt - 1 = j + q by
          rw [show (j + 1) * cpt + q * cpt = (j + q + 1) * cpt by ring, Nat.mul_div_cancel _ hpos, Nat.add_sub_cancel]]
      · rw [o1]
        exact picked_lt (plan_lt fp dev job n cpt q0 j)
    have e1 : k + 1 + q = k + q + 1 := by omega
    have e2 : (k + q + 1) * cpt = (k + 1) * cpt + q * cpt := by ring
    obtain ⟨i1, i2⟩ := ih' k (by omega)
    refine fin (ready := fun _ => true) ?_ ?_ ?_
    · have a : (plan fp dev job' n cpt (q0.map (lateX (q * cpt))) (k + 1 + q)).queue =
          rest ((plan fp dev job' n cpt (q0.map (lateX (q * cpt))) (k + q)).picked job' n ((k + q + 1) * cpt)) := by
        rw [e1]; rfl
      rw [a, e2, i2]
      rfl
    · have a : (plan fp dev job' n cpt (q0.map (lateX (q * cpt))) (k + 1 + q)).live =
          ((plan fp dev job' n cpt (q0.map (lateX (q * cpt))) (k + q)).picked job' n ((k + q + 1) * cpt)).2.1.filter
            fun i => ((plan fp dev job' n cpt (q0.map (lateX (q * cpt))) (k + 1 + q)).σ i).isActive := by
        rw [e1]; rfl
      rw [a, e2, i1]
      refine List.filter_congr fun i hi => ?_
      rw [hst i (picked_lt (plan_lt fp dev job n cpt q0 k) i hi)]
      show (late _ ((plan fp dev job n cpt q0 (k + 1)).σ i)).isActive = ((plan fp dev job n cpt q0 (k + 1)).σ i).isActive
      cases (plan fp dev job n cpt q0 (k + 1)).σ i <;> rfl
    · refine L.readyIn_eq hst (b := (k + 1 + 2) * cpt + 1) (fun i _ => ?_) fun i hi j d ha => ?_
      · rw [← run_plan fp dev job n hpos]
        refine (round_intime (k + 1) (by omega) i).le ?_ (le_refl _)
        exact Nat.mul_le_mul_right _ (by omega)
      · have := hd i hi j d ha
        omega

end

/-! ### The engine -/

theorem insert_late (S : Nat) (a : Nat × Nat) (l : List (Nat × Nat)) :
    insertSorted (fun a b : Nat × Nat => decide (b.1 < a.1 ∨ (b.1 = a.1 ∧ b.2 ≤ a.2))) (lateX S a) (l.map (lateX S)) =
      (insertSorted (fun a b : Nat × Nat => decide (b.1 < a.1 ∨ (b.1 = a.1 ∧ b.2 ≤ a.2))) a l).map (lateX S) := by
  induction l with
  | nil => rfl
  | cons b l ih =>
    rw [List.map_cons, insertSorted, insertSorted]
    by_cases h : b.1 < a.1 ∨ (b.1 = a.1 ∧ b.2 ≤ a.2)
    · rw [if_pos (decide_eq_true h), if_pos (decide_eq_true (by unfold lateX; simp only; omega))]
      rfl
    · rw [if_neg (by rw [decide_eq_true_eq]; unfold lateX; simp only; omega), if_neg (by rw [decide_eq_true_eq]; exact h),
        List.map_cons, ih]

theorem queue_late (S : Nat) (ts : List TState) :
    createTransferQueue (ts.map (laterT S)) = (createTransferQueue ts).map (lateX S) := by
  unfold createTransferQueue
  induction ts with
  | nil => rfl
  | cons t ts ih =>
    simp only [List.map_cons, sortBy] at ih ⊢
    rw [ih]
    exact insert_late S (t.params.offset, t.params.id.toNat) _

theorem later_queue {fp : FP} {dev : Device} {ho : HashOrder} {wl wl' : Workload} {s0 s0' : Sim} {S : Nat}
    (h0 : initSim fp dev ho wl = .ok s0) (h0' : initSim fp dev ho wl' = .ok s0')
    (hS : wl'.transfers = wl.transfers.map (postponed S)) : s0'.queue = s0.queue.map (lateX S) := by
  obtain ⟨ts, I⟩ := init0 h0
  obtain ⟨ts', I'⟩ := init0 h0'
  have b := I'.state
  rw [init_later hS I.state] at b
  rw [init_queue h0 I, init_queue h0' I', ← Out.ok.inj b, queue_late]

end NPE
