import Verif.Proofs.Continue
import Verif.Spec.Pause

/-
Transfers that have ended have no influence on later ones.
-/

namespace NPE
open NPE.Spec NPE.Spec.Fluid

/-! ### The fluid runs -/

/-- The jobs of a later part: some wait in addition for transfers of the earlier part, which have ended by then. -/
structure LaterPart (n : Nat) (g : Nat → Nat) (T : Nat) (old : Nat → Prop) (job job' : Nat → Job) : Prop where
  data : ∀ i, i < n → SameData (job i).t (job' (g i)).t
  route : ∀ i, i < n → (job' (g i)).route = (job i).route
  after : ∀ i, i < n → (job' (g i)).after = (job i).after.map (fun p => (g p.1, p.2)) ∨
    (job i).after = none ∧ ∃ a, old a ∧ (job' (g i)).after = some (a, 0)
  closed : ∀ i, i < n → ∀ j d, (job i).after = some (j, d) → j < n
  late : ∀ i, i < n → T ≤ (job i).t.offset

/-- The earlier part has ended before the timestep of cycle `T`. -/
def Over (cpt T : Nat) (old : Nat → Prop) (σ : Fluid.State) : Prop :=
  ∀ a, old a → ∃ x e, σ a = .finished x e ∧ e < T / cpt * cpt

section
variable {n : Nat} {g : Nat → Nat} {T : Nat} {old : Nat → Prop} {job job' : Nat → Job}

theorem LaterPart.begins_eq (F : LaterPart n g T old job job') {cpt curr : Nat} {σ σ' : Fluid.State} (h : Agree n g σ σ')
    (ho : T ≤ curr → Over cpt T old σ') {i : Nat} (hi : i < n) : begins job' curr σ' (g i) = begins job curr σ i := by
  unfold Fluid.begins
  rw [h i hi, (F.data i hi).offset]
  cases hσ : σ i with
  | active c m => rfl
  | finished c e => rfl
  | waiting =>
    simp only
    by_cases hc : (job i).t.offset ≤ curr
    · rw [if_pos hc, if_pos hc]
      rcases F.after i hi with ha | ⟨hn, a, ha, ha'⟩
      · rw [ha]
        cases hb : (job i).after with
        | none => rfl
        | some p =>
          obtain ⟨j, d⟩ := p
          simp only [Option.map_some]
          rw [h j (F.closed i hi j d hb)]
      · have hl := F.late i hi
        obtain ⟨x, e, h1, h2⟩ := ho (by omega) a ha
        rw [hn, ha']
        simp only
        rw [h1]
        simp only
        have h3 : T / cpt * cpt ≤ T := Nat.div_mul_le_self _ _
        have h4 : (e + 0) % 4294967296 ≤ e := Nat.mod_le _ _
        rw [if_pos (by omega), max_eq_left (by omega)]
    · rw [if_neg hc, if_neg hc]

theorem LaterPart.start_eq (F : LaterPart n g T old job job') {cpt curr : Nat} {σ σ' : Fluid.State} (h : Agree n g σ σ')
    (ho : T ≤ curr → Over cpt T old σ') : Agree n g (Fluid.start job curr σ) (Fluid.start job' curr σ') := by
  intro i hi
  unfold Fluid.start
  rw [F.begins_eq h ho hi, h i hi]

theorem LaterPart.credit_eq (F : LaterPart n g T old job job') {cpt k : Nat} {σ σ' : Fluid.State} (h : Agree n g σ σ')
    (ho : T ≤ k * cpt → Over cpt T old σ') {i c : Nat} (hi : i < n) (hc : T ≤ c) :
    credit job' cpt (k * cpt) σ' (g i) c = credit job cpt (k * cpt) σ i c := by
  unfold Fluid.credit
  rcases F.after i hi with ha | ⟨hn, a, ha, ha'⟩
  · rw [ha]
    cases hb : (job i).after with
    | none => rfl
    | some p =>
      obtain ⟨j, d⟩ := p
      simp only [Option.map_some]
      rw [h j (F.closed i hi j d hb)]
  · rw [hn, ha']
    simp only
    cases hσ : σ' a with
    | waiting => rfl
    | active x m => rfl
    | finished x e =>
      simp only
      rw [if_neg]
      rintro ⟨h1, h2, h3, h4⟩
      obtain ⟨x', e', h5, h6⟩ := ho (by omega) a ha
      rw [hσ] at h5
      obtain ⟨_, rfl⟩ := Prog.finished.inj h5
      have h7 : (T / cpt + 1) * cpt < k * cpt := by
        rw [Nat.add_mul, Nat.one_mul]
        have := Nat.div_mul_le_self T cpt
        omega
      have h8 : T / cpt + 1 < k := Nat.lt_of_mul_lt_mul_right h7
      have h9 : (T / cpt + 2) * cpt ≤ k * cpt := Nat.mul_le_mul_right _ h8
      rw [Nat.add_mul] at h9
      omega

theorem LaterPart.advance_eq (F : LaterPart n g T old job job') {fl : ℚ → ℚ} {cpt k : Nat} {speed speed' : Speed}
    {σ σ' : Fluid.State} (hs : ∀ i, i < n → speed' (k * cpt) σ' (g i) = speed (k * cpt) σ i)
    (h : Agree n g σ σ') (ho : T ≤ k * cpt → Over cpt T old σ') (hc : ∀ i c m, i < n → σ i = .active c m → T ≤ c) :
    Agree n g (advance fl job cpt speed (k * cpt) σ) (advance fl job' cpt speed' (k * cpt) σ') := by
  intro i hi
  unfold Fluid.advance
  rw [h i hi]
  cases hσ : σ i with
  | waiting => rfl
  | finished c e => rfl
  | active c m =>
    simp only
    rw [F.credit_eq h ho hi (hc i c m hi hσ), hs i hi, (F.data i hi).bytes]

theorem start_active_ge {curr : Nat} {σ : Fluid.State} {i : Nat} (h : ∀ c m, σ i = .active c m → (job i).t.offset ≤ c) :
    ∀ c m, Fluid.start job curr σ i = .active c m → (job i).t.offset ≤ c := by
  intro c m hs
  unfold Fluid.start at hs
  cases hb : begins job curr σ i with
  | none => rw [hb] at hs; exact h c m hs
  | some x =>
    rw [hb] at hs
    obtain ⟨rfl, _⟩ := Prog.active.inj hs
    unfold Fluid.begins at hb
    cases hσ : σ i with
    | active c m => rw [hσ] at hb; simp at hb
    | finished c e => rw [hσ] at hb; simp at hb
    | waiting =>
      rw [hσ] at hb
      simp only at hb
      split at hb
      · split at hb
        · exact (Option.some.inj hb).le
        · split at hb
          · split at hb
            · rw [← Option.some.inj hb]; exact le_max_left _ _
            · cases hb
          · cases hb
      · cases hb

theorem advance_active_ge {fl : ℚ → ℚ} {cpt curr : Nat} {speed : Speed} {σ : Fluid.State} {i : Nat}
    (h : ∀ c m, σ i = .active c m → (job i).t.offset ≤ c) :
    ∀ c m, advance fl job cpt speed curr σ i = .active c m → (job i).t.offset ≤ c := by
  intro c m hs
  unfold Fluid.advance at hs
  cases hσ : σ i with
  | waiting => rw [hσ] at hs; cases hs
  | finished x e => rw [hσ] at hs; cases hs
  | active x y =>
    rw [hσ] at hs
    simp only at hs
    split at hs
    · cases hs
    · obtain ⟨rfl, _⟩ := Prog.active.inj hs
      exact h x y hσ

theorem run_active_ge (fl : ℚ → ℚ) (job : Nat → Job) (cpt : Nat) (speed : Speed) (k i : Nat) :
    ∀ c m, run fl job cpt speed k i = .active c m → (job i).t.offset ≤ c := by
  induction k with
  | zero => intro c m h; cases h
  | succ k ih => exact advance_active_ge (start_active_ge ih)

/-- Before its cycle a transfer waits. -/
theorem run_waiting (fl : ℚ → ℚ) (job : Nat → Job) (cpt : Nat) (speed : Speed) {i : Nat} (k : Nat)
    (h : k * cpt < (job i).t.offset) : run fl job cpt speed k i = .waiting := by
  induction k with
  | zero => rfl
  | succ k ih =>
    have hw := ih (by rw [Nat.succ_mul] at h; omega)
    show advance _ _ _ _ _ (Fluid.start _ _ _) i = _
    have : Fluid.start job ((k + 1) * cpt) (run fl job cpt speed k) i = .waiting := by
      unfold Fluid.start Fluid.begins
      rw [hw]
      simp only
      rw [if_neg (by omega)]
    unfold Fluid.advance
    rw [this]

/-- What has ended stays so. -/
theorem Over.step {fl : ℚ → ℚ} {cpt curr : Nat} {speed : Speed} {σ : Fluid.State} (h : Over cpt T old σ) :
    Over cpt T old (Fluid.start job curr σ) ∧ Over cpt T old (advance fl job cpt speed curr (Fluid.start job curr σ)) := by
  have h1 : Over cpt T old (Fluid.start job curr σ) := by
    intro a ha
    obtain ⟨x, e, h1, h2⟩ := h a ha
    refine ⟨x, e, ?_, h2⟩
    unfold Fluid.start Fluid.begins
    rw [h1]
  refine ⟨h1, fun a ha => ?_⟩
  obtain ⟨x, e, h2, h3⟩ := h1 a ha
  refine ⟨x, e, ?_, h3⟩
  unfold Fluid.advance
  rw [h2]

/-- Both runs of the later part agree, if the speeds do. -/
theorem LaterPart.run_eq (F : LaterPart n g T old job job') {fl : ℚ → ℚ} {cpt : Nat} {speed speed' : Speed}
    (hs : ∀ k σ σ', Agree n g σ σ' → ∀ i, i < n → speed' (k * cpt) σ' (g i) = speed (k * cpt) σ i)
    (ho : ∀ k, T ≤ (k + 1) * cpt → Over cpt T old (run fl job' cpt speed' k)) (k : Nat) :
    Agree n g (run fl job cpt speed k) (run fl job' cpt speed' k) := by
  induction k with
  | zero => intro i _; rfl
  | succ k ih =>
    refine F.advance_eq (fun i hi => hs _ _ _ (F.start_eq ih (ho k)) i hi) (F.start_eq ih (ho k))
      (fun hT => ((ho k hT).step (fl := fl) (job := job') (speed := speed')).1) fun i c m hi h => ?_
    exact le_trans (F.late i hi) (start_active_ge (run_active_ge fl job cpt speed k i) c m h)

theorem LaterPart.ready_eq (F : LaterPart n g T old job job') {n' : Nat} (hn : ∀ i, i < n → g i < n') {cpt curr : Nat}
    {σ σ' : Fluid.State} (h : Agree n g σ σ') (hT : T ≤ curr) (ho : Over cpt T old σ') {i : Nat} (hi : i < n) :
    readyIn job' n' curr σ' (g i) = readyIn job n curr σ i := by
  unfold readyIn
  rw [decide_eq_true hi, decide_eq_true (hn i hi)]
  rcases F.after i hi with ha | ⟨hx, a, ha, ha'⟩
  · rw [ha]
    cases hb : (job i).after with
    | none => rfl
    | some p =>
      obtain ⟨j, d⟩ := p
      simp only [Option.map_some]
      rw [h j (F.closed i hi j d hb)]
  · rw [hx, ha']
    obtain ⟨x, e, h1, h2⟩ := ho a ha
    simp only
    rw [h1]
    simp only [Bool.true_and]
    have h3 : T / cpt * cpt ≤ T := Nat.div_mul_le_self _ _
    have h4 : (e + 0) % 4294967296 ≤ e := Nat.mod_le _ _
    rw [decide_eq_true (by omega)]

/-- Jobs without their dependencies. -/
def nowait (job : Nat → Job) : Nat → Job := fun i => ⟨(job i).t, (job i).route, none⟩

theorem LaterPart.nowait (F : LaterPart n g T old job job') : Frame n g (nowait job) (nowait job') :=
  ⟨F.data, F.route, fun _ _ => rfl, fun _ _ _ _ h => by cases h⟩

theorem LaterPart.speed_eq (F : LaterPart n g T old job job') {σ σ' : Fluid.State}
    (h : Agree n g σ σ') (fp : FP) (dev : Device) (cpt curr : Nat) {order order' : Nat → List Nat}
    (ho : ∀ j ∈ order curr, j < n) (ho' : order' curr = (order curr).map g) {i : Nat} (hi : i < n) :
    sharedIn fp dev job' cpt order' curr σ' (g i) = sharedIn fp dev job cpt order curr σ i :=
  F.nowait.speed_eq h fp dev cpt curr ho ho' hi

/-- The plans with congestion, from the timestep of cycle `T` on. -/
theorem LaterPart.plan_eq (F : LaterPart n g T old job job') {n' : Nat} (hn : ∀ i, i < n → g i < n') (fp : FP) (dev : Device)
    {cpt : Nat} (q0 q0' : List (Nat × Nat)) {k0 : Nat} (hk0 : T ≤ (k0 + 1) * cpt)
    (hA : Agree n g (plan fp dev job n cpt q0 k0).σ (plan fp dev job' n' cpt q0' k0).σ)
    (hO : Over cpt T old (plan fp dev job' n' cpt q0' k0).σ)
    (hq : (plan fp dev job' n' cpt q0' k0).queue = (plan fp dev job n cpt q0 k0).queue.map (moveEntry g))
    (hl : (plan fp dev job' n' cpt q0' k0).live = (plan fp dev job n cpt q0 k0).live.map g)
    (hlt : ∀ x ∈ (plan fp dev job n cpt q0 k0).queue, x.2 < n)
    (hc : ∀ i c m, i < n → (plan fp dev job n cpt q0 k0).σ i = .active c m → (job i).t.offset ≤ c) : ∀ m,
      Agree n g (plan fp dev job n cpt q0 (k0 + m)).σ (plan fp dev job' n' cpt q0' (k0 + m)).σ ∧
      Over cpt T old (plan fp dev job' n' cpt q0' (k0 + m)).σ ∧
      (plan fp dev job' n' cpt q0' (k0 + m)).queue = (plan fp dev job n cpt q0 (k0 + m)).queue.map (moveEntry g) ∧
      (plan fp dev job' n' cpt q0' (k0 + m)).live = (plan fp dev job n cpt q0 (k0 + m)).live.map g ∧
      (∀ x ∈ (plan fp dev job n cpt q0 (k0 + m)).queue, x.2 < n) ∧
      ∀ i c x, i < n → (plan fp dev job n cpt q0 (k0 + m)).σ i = .active c x → (job i).t.offset ≤ c := by
  intro m
  induction m with
  | zero => exact ⟨hA, hO, hq, hl, hlt, hc⟩
  | succ m ih =>
    rw [← Nat.add_assoc]
    have hle : k0 ≤ k0 + m := Nat.le_add_right _ _
    generalize k0 + m = k at ih hle ⊢
    obtain ⟨a, o, b, c, d, e⟩ := ih
    have hT : T ≤ (k + 1) * cpt := le_trans hk0 (Nat.mul_le_mul_right _ (by omega))
    have key := pick_behind (f := g) (L := []) (curr := (k + 1) * cpt) (fun x hx => by cases hx)
      (n := n) (ready := readyIn job n ((k + 1) * cpt) (plan fp dev job n cpt q0 (k)).σ)
      (ready' := readyIn job' n' ((k + 1) * cpt) (plan fp dev job' n' cpt q0' (k)).σ)
      (fun i hi => F.ready_eq hn a hT o hi) (plan fp dev job n cpt q0 (k)).queue.length
      (plan fp dev job n cpt q0 (k)).queue (plan fp dev job n cpt q0 (k)).live 0 (by omega) d
    have hp : (plan fp dev job' n' cpt q0' (k)).picked job' n' ((k + 1) * cpt) =
        (((plan fp dev job n cpt q0 (k)).picked job n ((k + 1) * cpt)).1.map (moveEntry g),
          ((plan fp dev job n cpt q0 (k)).picked job n ((k + 1) * cpt)).2.1.map g,
          ((plan fp dev job n cpt q0 (k)).picked job n ((k + 1) * cpt)).2.2) := by
      unfold Plan.picked
      rw [b, c, List.length_map]
      have := key.1
      rw [List.length_nil, Nat.zero_add, List.nil_append] at this
      exact this
    have hplt := picked_lt (job := job) (curr := (k + 1) * cpt) (plan_lt fp dev job n cpt q0 (k))
    have hst := F.start_eq a (fun _ => o) (curr := (k + 1) * cpt)
    have hoo := o.step (fl := fp.f32.fl) (job := job') (curr := (k + 1) * cpt)
      (speed := sharedIn fp dev job' cpt fun _ =>
        ((plan fp dev job' n' cpt q0' (k)).picked job' n' ((k + 1) * cpt)).2.1)
    have hge : ∀ i c x, i < n → Fluid.start job ((k + 1) * cpt) (plan fp dev job n cpt q0 (k)).σ i = .active c x →
        (job i).t.offset ≤ c := fun i c x hi => start_active_ge (fun c x => e i c x hi) c x
    have hσ : Agree n g (plan fp dev job n cpt q0 (k + 1)).σ (plan fp dev job' n' cpt q0' (k + 1)).σ := by
      refine F.advance_eq (fun i hi => ?_) hst (fun _ => hoo.1) fun i c x hi h => le_trans (F.late i hi) (hge i c x hi h)
      exact F.speed_eq hst fp dev cpt _ hplt (by rw [hp]) hi
    refine ⟨hσ, hoo.2, ?_, ?_, ?_, fun i c x hi h => ?_⟩
    · show List.take _ _ = List.map _ (List.take _ _)
      rw [hp]
      simp only
      rw [List.length_map, List.map_take]
    · show List.filter _ _ = List.map _ (List.filter _ _)
      rw [hp]
      simp only
      rw [List.filter_map]
      congr 1
      refine List.filter_congr fun i hi => ?_
      have := congrArg Prog.isActive (hσ i (hplt i hi))
      have e : (plan fp dev job' n' cpt q0' (k + 1)).σ = advance fp.f32.fl job' cpt
        (sharedIn fp dev job' cpt fun _ =>
          ((plan fp dev job' n' cpt q0' (k)).picked job' n' ((k + 1) * cpt)).2.1) ((k + 1) * cpt)
        (Fluid.start job' ((k + 1) * cpt) (plan fp dev job' n' cpt q0' (k)).σ) := rfl
      rw [e, hp] at this
      exact this
    · intro x hx
      exact key.2.1 x (List.mem_of_mem_take hx)
    · exact advance_active_ge (fun c x => hge i c x hi) c x h

end

/-! ### The initial states -/

section
variable {fp : FP} {dev : Device} {links : List Int → List Int} {b1 b2 b : List BucketKey → List BucketKey}
  {wl1 wl2 wl : Workload} {s1 s2 s : Sim} {f g : Nat → Nat} {T : Nat}

theorem Spec.Sequence.continues (C : Sequence s1 s2 s f g T) : Continues s1 s f T := by
  refine ⟨C.order1, C.same1, C.early, fun i' u hu hne => ?_⟩
  rcases C.all i' (List.getElem?_eq_some_iff.mp hu).1 with ⟨i, hi, e⟩ | ⟨i, hi, e⟩
  · exact absurd e (hne i hi)
  · have gi : s2.ts[i]? = some s2.ts[i] := List.getElem?_eq_getElem hi
    obtain ⟨u', a1, a2⟩ := C.same2 i _ gi
    rw [e, hu] at a1
    rw [← Option.some.inj a1] at a2
    refine ⟨by rw [a2.offset]; exact C.late i _ gi, fun j t ht hp hq => ?_⟩
    refine (C.apart j i t _ ht gi).1 hp ?_
    unfold SameData at a2
    rw [← a2] at hq
    exact hq

theorem Spec.Sequence.embeds (C : Sequence s1 s2 s f g T) : Embeds dev s2 s g := embeds_of_mono C.order2 C.same2

/-- Nothing of the second part is earlier than something of the first one. -/
theorem Spec.Sequence.not_earlier (C : Sequence s1 s2 s f g T) {i j : Nat} (hi : i < s1.ts.length) (hj : j < s2.ts.length) :
    ¬ Earlier s (g j) (f i) := by
  rintro ⟨x, y, c1, c2, c3⟩
  obtain ⟨t, a1, a2⟩ := C.same1 i _ (List.getElem?_eq_getElem hi)
  obtain ⟨u, d1, d2⟩ := C.same2 j _ (List.getElem?_eq_getElem hj)
  rw [a1] at c2; rw [d1] at c1
  rw [← Option.some.inj c1, ← Option.some.inj c2, a2.offset, d2.offset] at c3
  have h1 := C.early i _ (List.getElem?_eq_getElem hi)
  have h2 := C.late j _ (List.getElem?_eq_getElem hj)
  omega

theorem pause_twoBefore (h2 : initSim fp dev ⟨links, b2⟩ wl2 = .ok s2) (h : initSim fp dev ⟨links, b⟩ wl = .ok s)
    (C : Sequence s1 s2 s f g T) {i j : Nat} (hi : i < s2.ts.length) (hj : j < s2.ts.length) :
    TwoBefore (SameLane dev) s (g j) (g i) ↔ TwoBefore (SameLane dev) s2 j i := by
  have ear := fun {a b : Nat} (ha : a < s2.ts.length) (hb : b < s2.ts.length) (hab : LaneMates (SameLane dev) s2 b a) =>
    embed_earlier h2 h rfl (C.embeds (dev := dev)) (i := a) (j := b) ha hb hab
  have mat := fun {j : Nat} (hj : j < s2.ts.length) => late_mates h2 h rfl (C.embeds (dev := dev)) hi hj
  have back : ∀ y', y' < s.ts.length → Earlier s (g j) y' → ∃ y, y < s2.ts.length ∧ g y = y' := by
    intro y' h1 h2
    rcases C.all y' h1 with ⟨a, ha, rfl⟩ | h
    · exact absurd h2 (C.not_earlier ha hj)
    · exact h
  constructor
  · rintro ⟨c1, c2, k', ⟨c3, c4, c5⟩, c6⟩
    obtain ⟨k, hk, rfl⟩ := back k' (mates_lt c3) c4
    have d1 := (mat hj).mp c1
    have d3 := (mat hk).mp c3
    refine ⟨d1, (ear hi hj d1).mp c2, k, ⟨d3, (ear hk hj (mates_both d1 d3)).mp c4, (ear hi hk d3).mp c5⟩, ?_⟩
    rintro y ⟨y1, y2, y3⟩
    have hy := mates_lt y1
    exact C.order2.injective (c6 (g y) ⟨(mat hy).mpr y1, (ear hy hj (mates_both d1 y1)).mpr y2, (ear hi hy y1).mpr y3⟩)
  · rintro ⟨d1, d2, k, ⟨d3, d4, d5⟩, d6⟩
    have hk := mates_lt d3
    refine ⟨(mat hj).mpr d1, (ear hi hj d1).mpr d2, g k,
      ⟨(mat hk).mpr d3, (ear hk hj (mates_both d1 d3)).mpr d4, (ear hi hk d3).mpr d5⟩, ?_⟩
    rintro y' ⟨y1, y2, y3⟩
    obtain ⟨y, hy, rfl⟩ := back y' (mates_lt y1) y2
    have e1 := (mat hy).mp y1
    rw [d6 y ⟨e1, (ear hy hj (mates_both d1 e1)).mp y2, (ear hi hy e1).mp y3⟩]

/-- What transfers of the second part wait for. -/
theorem pause_waits (h2 : initSim fp dev ⟨links, b2⟩ wl2 = .ok s2) (h : initSim fp dev ⟨links, b⟩ wl = .ok s)
    (hb2 : ∀ l, (b2 l).Perm l) (hb : ∀ l, (b l).Perm l) (C : Sequence s1 s2 s f g T) (hpf : ParentsFound s2)
    {i : Nat} (hi : i < s2.ts.length) :
    (∀ j d, WaitsFor s2 i j d → WaitsFor s (g i) (g j) d) ∧
    ∀ j' d, WaitsFor s (g i) j' d →
      (∃ j, g j = j' ∧ WaitsFor s2 i j d) ∨ d = 0 ∧ ∃ a, a < s1.ts.length ∧ f a = j' := by
  have E : Embeds dev s2 s g := C.embeds
  have gi : s2.ts[i]? = some s2.ts[i] := List.getElem?_eq_getElem hi
  obtain ⟨ti', a1, a2, a3⟩ := embed_get h2 h rfl E.toContains gi
  obtain ⟨_, I⟩ := init0 h2
  obtain ⟨_, I'⟩ := init0 h
  obtain ⟨_, _, _, _, g1, _, g2, _⟩ := SameData.fields a2
  have hpp : HasParent ti'.params ↔ HasParent s2.ts[i].params := by
    unfold HasParent; rw [g1, g2]
  by_cases hp : HasParent s2.ts[i].params
  · obtain ⟨j0, p0, q1, q2⟩ := hpf i _ gi hp
    obtain ⟨p0', q3, q4, _⟩ := embed_get h2 h rfl E.toContains q1
    have back : ∀ (j' : Nat) (p' : TState), s.ts[j']? = some p' → IsParent p'.params ti'.params →
        ∃ j p, s2.ts[j]? = some p ∧ g j = j' ∧ SameData p.params p'.params ∧ IsParent p.params s2.ts[i].params := by
      intro j' p' c1 c2
      rcases C.all j' (List.getElem?_eq_some_iff.mp c1).1 with ⟨a, ha, rfl⟩ | ⟨j, hj, rfl⟩
      · exfalso
        have ga : s1.ts[a]? = some s1.ts[a] := List.getElem?_eq_getElem ha
        obtain ⟨ta', b1, b3⟩ := C.same1 a _ ga
        rw [b1] at c1
        have e1 := Option.some.inj c1
        subst e1
        exact (C.apart a i _ _ ga gi).2 hp ((isParent_same b3 a2).mp c2)
      · have gj : s2.ts[j]? = some s2.ts[j] := List.getElem?_eq_getElem hj
        obtain ⟨tj', b1, b2, b3⟩ := embed_get h2 h rfl E.toContains gj
        rw [b1] at c1
        have e1 := Option.some.inj c1
        subst e1
        exact ⟨j, _, gj, rfl, b2, (isParent_same b2 a2).mp c2⟩
    constructor
    · intro j d hw
      rw [I.waits_named gi hp ⟨_, _, q1, q2⟩] at hw
      rw [I'.waits_named a1 (hpp.mpr hp) ⟨_, p0', q3, (isParent_same q4 a2).mpr q2⟩]
      obtain ⟨⟨p, e1, e4, e5⟩, e6⟩ := hw
      obtain ⟨p', b1, b2, _⟩ := embed_get h2 h rfl E.toContains e1
      refine ⟨⟨p', b1, (isParent_same b2 a2).mpr e4, ?_⟩, fun k' pk' k1 k2 => ?_⟩
      · rw [groupDelay_same fp dev a2, (SameData.fields b2).2.1]; exact e5
      · obtain ⟨k, pk, k3, rfl, _, k5⟩ := back k' pk' k1 k2
        exact C.order2.le_iff_le.mpr (e6 k pk k3 k5)
    · intro j' d hw
      rw [I'.waits_named a1 (hpp.mpr hp) ⟨_, p0', q3, (isParent_same q4 a2).mpr q2⟩] at hw
      obtain ⟨⟨p', c1, c2, c3⟩, c4⟩ := hw
      obtain ⟨j, p, e1, rfl, e3, e4⟩ := back j' p' c1 c2
      refine Or.inl ⟨j, rfl, ?_⟩
      rw [I.waits_named gi hp ⟨_, _, q1, q2⟩]
      refine ⟨⟨p, e1, e4, ?_⟩, fun k pk k1 k2 => ?_⟩
      · rw [groupDelay_same fp dev a2, (SameData.fields e3).2.1] at c3
        exact c3
      · obtain ⟨pk', k3, k4, _⟩ := embed_get h2 h rfl E.toContains k1
        exact C.order2.le_iff_le.mp (c4 _ pk' k3 ((isParent_same k4 a2).mpr k2))
  · have hn' : ¬ HasParent ti'.params := fun h => hp (hpp.mp h)
    constructor
    · intro j d hw
      obtain ⟨e1, e2⟩ := (I.waits_niu hb2 gi hp j d).mp hw
      exact (I'.waits_niu hb a1 hn' _ _).mpr ⟨e1, (pause_twoBefore h2 h C hi (mates_lt e2.1)).mpr e2⟩
    · intro j' d hw
      obtain ⟨e1, e2⟩ := (I'.waits_niu hb a1 hn' _ _).mp hw
      rcases C.all j' (mates_lt e2.1) with ha | ⟨j, hj, rfl⟩
      · exact Or.inr ⟨e1, ha⟩
      · exact Or.inl ⟨j, rfl, (I.waits_niu hb2 gi hp j d).mpr ⟨e1, (pause_twoBefore h2 h C hi hj).mp e2⟩⟩

theorem pause_later (h2 : initSim fp dev ⟨links, b2⟩ wl2 = .ok s2) (h : initSim fp dev ⟨links, b⟩ wl = .ok s)
    (hb2 : ∀ l, (b2 l).Perm l) (hb : ∀ l, (b l).Perm l) (C : Sequence s1 s2 s f g T) (hpf : ParentsFound s2)
    {job job' : Nat → Job} (hd : Describes job s2) (hd' : Describes job' s) :
    LaterPart s2.ts.length g T (fun a' => (∃ a, a < s1.ts.length ∧ f a = a') ∧ ∃ j, WaitsFor s (g j) a' 0) job job' := by
  have get : ∀ i, i < s2.ts.length → ∃ t t', s2.ts[i]? = some t ∧ s.ts[g i]? = some t' ∧
      SameData t.params t'.params ∧ t'.route = t.route := by
    intro i hi
    obtain ⟨t', a1, a2, a3⟩ := embed_get h2 h rfl (C.embeds (dev := dev)).toContains (List.getElem?_eq_getElem hi)
    exact ⟨_, t', List.getElem?_eq_getElem hi, a1, a2, a3⟩
  refine ⟨fun i hi => ?_, fun i hi => ?_, fun i hi => ?_, fun i hi j d ha => ?_, fun i hi => ?_⟩
  · obtain ⟨t, t', a1, a2, a3, a4⟩ := get i hi
    rw [(hd i t a1).1, (hd' _ t' a2).1]; exact a3
  · obtain ⟨t, t', a1, a2, a3, a4⟩ := get i hi
    rw [(hd i t a1).2.1, (hd' _ t' a2).2.1]; exact a4
  · obtain ⟨t, t', a1, a2, a3, a4⟩ := get i hi
    have e := (hd i t a1).2.2
    have e' := (hd' _ t' a2).2.2
    obtain ⟨w1, w2⟩ := pause_waits h2 h hb2 hb C hpf hi
    cases ha : (job i).after with
    | some p => exact Or.inl ((e' (g p.1) p.2).mpr (w1 _ _ ((e p.1 p.2).mp ha)))
    | none =>
      cases ha' : (job' (g i)).after with
      | none => exact Or.inl rfl
      | some p =>
        have hw := (e' p.1 p.2).mp ha'
        rcases w2 p.1 p.2 hw with ⟨j, _, hj⟩ | ⟨hd0, hx⟩
        · rw [(e j p.2).mpr hj] at ha
          cases ha
        · exact Or.inr ⟨rfl, p.1, ⟨hx, i, by rw [← hd0]; exact hw⟩, by rw [← hd0]⟩
  · obtain ⟨t, t', a1, a2, a3, a4⟩ := get i hi
    obtain ⟨_, _, _, _, h2, _⟩ := ((hd i t a1).2.2 j d).mp ha
    exact (List.getElem?_eq_some_iff.mp h2).1
  · obtain ⟨t, t', a1, a2, a3, a4⟩ := get i hi
    rw [(hd i t a1).1]
    exact C.late i t a1

/-- The queue of both parts. -/
theorem pause_queue (h1 : initSim fp dev ⟨links, b1⟩ wl1 = .ok s1) (h2 : initSim fp dev ⟨links, b2⟩ wl2 = .ok s2)
    (h : initSim fp dev ⟨links, b⟩ wl = .ok s) (C : Sequence s1 s2 s f g T) :
    s.queue = s2.queue.map (moveEntry g) ++ s1.queue.map (moveEntry f) ∧
      (∀ x ∈ s2.queue.map (moveEntry g), T ≤ x.1) ∧ (∀ x ∈ s1.queue, x.2 < s1.ts.length) ∧
      ∀ x ∈ s2.queue, x.2 < s2.ts.length := by
  obtain ⟨L, l1, l2, l3⟩ := late_queue h1 h C.continues
  obtain ⟨m1, n1, p1⟩ := init_queue_facts h1
  obtain ⟨m2, n2, p2⟩ := init_queue_facts h2
  obtain ⟨m, n0, p0⟩ := init_queue_facts h
  have inj : Function.Injective (moveEntry g) := by
    rintro ⟨a, b⟩ ⟨c, d⟩ h
    obtain ⟨h1, h2⟩ := Prod.mk.inj h
    rw [Prod.mk.injEq]
    exact ⟨h1, C.order2.injective h2⟩
  have ge : ∀ x ∈ s2.queue.map (moveEntry g), T ≤ x.1 := by
    intro x hx
    obtain ⟨z, hz, rfl⟩ := List.mem_map.mp hx
    obtain ⟨t, h1, h2⟩ := (m2 z).mp hz
    show T ≤ z.1
    rw [← h2]; exact C.late _ t h1
  refine ⟨?_, ge, l3, fun x hx => ?_⟩
  · rw [l2]
    congr 1
    have hperm : L.Perm (s2.queue.map (moveEntry g)) := by
      rw [List.perm_ext_iff_of_nodup ((List.nodup_append.mp (l2 ▸ n0)).1) (n2.map inj)]
      intro x
      constructor
      · intro hx
        have hT := l1 x hx
        obtain ⟨u, h1, h2⟩ := (m x).mp (by rw [l2]; exact List.mem_append_left _ hx)
        rcases C.all x.2 (List.getElem?_eq_some_iff.mp h1).1 with ⟨a, ha, hfa⟩ | ⟨j, hj, hgj⟩
        · exfalso
          obtain ⟨t', a1, a2⟩ := C.same1 a _ (List.getElem?_eq_getElem ha)
          rw [hfa, h1] at a1
          rw [← Option.some.inj a1] at a2
          have := C.early a _ (List.getElem?_eq_getElem ha)
          have := a2.offset
          omega
        · obtain ⟨t', a1, a2⟩ := C.same2 j _ (List.getElem?_eq_getElem hj)
          rw [hgj, h1] at a1
          rw [← Option.some.inj a1] at a2
          refine List.mem_map.mpr ⟨(x.1, j), (m2 _).mpr ⟨_, List.getElem?_eq_getElem hj, by rw [← a2.offset]; exact h2⟩, ?_⟩
          unfold moveEntry
          rw [hgj]
      · intro hx
        have hT := ge x hx
        obtain ⟨z, hz, rfl⟩ := List.mem_map.mp hx
        obtain ⟨t, h1, h2⟩ := (m2 z).mp hz
        obtain ⟨t', a1, a2⟩ := C.same2 _ t h1
        have hq : moveEntry g z ∈ s.queue := (m _).mpr ⟨t', a1, by rw [a2.offset]; exact h2⟩
        rw [l2] at hq
        rcases List.mem_append.mp hq with hq | hq
        · exact hq
        · exfalso
          obtain ⟨y, hy, e⟩ := List.mem_map.mp hq
          obtain ⟨u, h3, h4⟩ := (m1 y).mp hy
          have := C.early _ u h3
          have e1 : (moveEntry f y).1 = (moveEntry g z).1 := congrArg Prod.fst e
          change y.1 = _ at e1
          omega
    refine hperm.eq_of_pairwise (le := QueueOrder) (fun a b _ _ => queueOrder_antisymm a b)
      (List.pairwise_append.mp (l2 ▸ p0)).1 ?_
    rw [List.pairwise_map]
    refine p2.imp fun {a b} h => ?_
    unfold QueueOrder at h ⊢
    exact h.imp id fun ⟨h1, h2⟩ => ⟨h1, C.order2.monotone h2⟩
  · obtain ⟨t, h1, _⟩ := (m2 x).mp hx
    exact (List.getElem?_eq_some_iff.mp h1).1

end

/-! ### The ends of the runs -/

/-- Three runs: two parts and the whole. -/
theorem pause_times {n1 n2 n cpt T : Nat} {f g : Nat → Nat} (hf : ∀ i, i < n1 → f i < n) (hg : ∀ i, i < n2 → g i < n)
    (all : ∀ i', i' < n → (∃ i, i < n1 ∧ f i = i') ∨ ∃ i, i < n2 ∧ g i = i')
    {fl : ℚ → ℚ} {job1 job2 job : Nat → Job} {speed1 speed2 speed : Speed}
    (A1 : ∀ k, k * cpt < T → Agree n1 f (run fl job1 cpt speed1 k) (run fl job cpt speed k))
    (A2 : ∀ k, Agree n2 g (run fl job2 cpt speed2 k) (run fl job cpt speed k))
    {u1 u : Sim} {c1 c : Nat} {e2 : Ending} (h1 : EndsAs n1 cpt (run fl job1 cpt speed1) (.finished u1 c1)) (hc1 : c1 < T)
    (h2 : EndsAs n2 cpt (run fl job2 cpt speed2) e2) (h : EndsAs n cpt (run fl job cpt speed) (.finished u c))
    (hc : c ≤ 50000000 + cpt) :
    ∃ u2 c2, e2 = .finished u2 c2 ∧ c = max c1 c2 ∧
      (∀ (i : Nat) (t : TState), u1.ts[i]? = some t →
        ∃ t', u.ts[f i]? = some t' ∧ t'.start = t.start ∧ t'.endc = t.endc) ∧
      ∀ (i : Nat) (t : TState), u2.ts[i]? = some t →
        ∃ t', u.ts[g i]? = some t' ∧ t'.start = t.start ∧ t'.endc = t.endc := by
  obtain ⟨u2, c2, rfl, hc2, ht2⟩ := same_times hg A2 h2 h hc
  obtain ⟨e1, K1, e3, e4, e2, e5⟩ := h1
  obtain ⟨q1, K2, q3, q4, q2, _⟩ := h2
  obtain ⟨e1', K, e3', e4', e2', e5'⟩ := h
  have hK : K1 ≤ K := by
    by_contra hlt
    have hle : K * cpt ≤ K1 * cpt := Nat.mul_le_mul_right _ (by omega)
    refine e5 K e3' (by omega) fun i hi => ?_
    have g : u.ts[f i]? = some (u.ts[f i]'(by have := hf i hi; omega)) := List.getElem?_eq_getElem _
    have := e2' _ _ g
    rw [A1 K (by omega) i hi] at this
    exact ⟨_, _, this⟩
  have hle : K ≤ max K1 K2 := by
    by_contra hlt
    refine e5' (max K1 K2) (le_trans e3 (le_max_left _ _)) (by omega) fun i' hi' => ?_
    rcases all i' hi' with ⟨i, hi, rfl⟩ | ⟨i, hi, rfl⟩
    · have r := A1 K1 (by omega) i hi
      rw [e2 i _ (List.getElem?_eq_getElem (by omega))] at r
      exact ⟨_, _, run_finished_le (le_max_left _ _) r⟩
    · have r := A2 K2 i hi
      rw [q2 i _ (List.getElem?_eq_getElem (by omega))] at r
      exact ⟨_, _, run_finished_le (le_max_right _ _) r⟩
  refine ⟨u2, c2, rfl, ?_, fun i t ht => ?_, ht2⟩
  · have h1 : c1 ≤ c := by rw [e4, e4']; exact Nat.mul_le_mul_right _ hK
    have h2 : c ≤ max K1 K2 * cpt := by rw [e4']; exact Nat.mul_le_mul_right _ hle
    rcases Nat.le_total K1 K2 with hx | hx
    · rw [max_eq_right hx, ← q4] at h2
      omega
    · rw [max_eq_left hx, ← e4] at h2
      omega
  · have hi : i < n1 := by rw [← e1]; exact (List.getElem?_eq_some_iff.mp ht).1
    have g : u.ts[f i]? = some (u.ts[f i]'(by have := hf i hi; omega)) := List.getElem?_eq_getElem _
    have r := A1 K1 (by omega) i hi
    rw [e2 i t ht] at r
    have r2 := run_finished_le hK r
    rw [e2' _ _ g] at r2
    obtain ⟨q1, q2⟩ := Prog.finished.inj r2
    exact ⟨_, g, q1, q2⟩

/-- After the end of the first part. -/
theorem pause_over {n1 cpt T : Nat} {f : Nat → Nat} {fl : ℚ → ℚ} {job1 job : Nat → Job} {speed1 speed : Speed}
    (A1 : ∀ k, k * cpt < T → Agree n1 f (run fl job1 cpt speed1 k) (run fl job cpt speed k))
    {u1 : Sim} {c1 : Nat} (h1 : EndsAs n1 cpt (run fl job1 cpt speed1) (.finished u1 c1)) (hc1 : c1 < T)
    {old : Nat → Prop} (he : ∀ (a : Nat) (t : TState), u1.ts[a]? = some t → old (f a) → t.endc < T / cpt * cpt) (k : Nat)
    (hk : T ≤ (k + 1) * cpt) :
    Over cpt T (fun a' => (∃ a, a < n1 ∧ f a = a') ∧ old a') (run fl job cpt speed k) := by
  rintro a' ⟨⟨a, ha, rfl⟩, ho⟩
  obtain ⟨e1, K1, _, e4, e2, _⟩ := h1
  have g : u1.ts[a]? = some (u1.ts[a]'(by omega)) := List.getElem?_eq_getElem _
  have r := A1 K1 (by omega) a ha
  rw [e2 a _ g] at r
  have hK : K1 ≤ k := by
    have : K1 * cpt < (k + 1) * cpt := by omega
    have := Nat.lt_of_mul_lt_mul_right this
    omega
  exact ⟨_, _, run_finished_le hK r, he a _ g ho⟩

/-- A plan with nothing left to do. -/
theorem plan_done (fp : FP) (dev : Device) (job : Nat → Job) (n cpt : Nat) (q0 : List (Nat × Nat)) {k : Nat}
    (h : (plan fp dev job n cpt q0 k).queue = [] ∧ (plan fp dev job n cpt q0 k).live = []) (m : Nat) :
    (plan fp dev job n cpt q0 (k + m)).queue = [] ∧ (plan fp dev job n cpt q0 (k + m)).live = [] := by
  induction m with
  | zero => exact h
  | succ m ih =>
    rw [← Nat.add_assoc]
    generalize k + m = k at ih ⊢
    have hp : (plan fp dev job n cpt q0 k).picked job n ((k + 1) * cpt) = ([], [], 0) := by
      unfold Plan.picked
      rw [ih.1, ih.2]
      rfl
    constructor
    · show List.take _ _ = _
      rw [hp]
      rfl
    · show List.filter _ _ = _
      rw [hp]
      rfl

/-- A plan of transfers that are not due. -/
theorem plan_idle (fp : FP) (dev : Device) (job : Nat → Job) (n cpt : Nat) {T : Nat} {q0 : List (Nat × Nat)}
    (hq : ∀ x ∈ q0, T ≤ x.1) (k : Nat) (hk : k * cpt < T) :
    (plan fp dev job n cpt q0 k).queue = q0 ∧ (plan fp dev job n cpt q0 k).live = [] := by
  have F : Frame 0 id job job := ⟨fun _ h => absurd h (by omega), fun _ h => absurd h (by omega),
    fun _ h => absurd h (by omega), fun _ h => absurd h (by omega)⟩
  have h := F.plan_late (n' := n) (fun _ h => absurd h (by omega)) fp dev cpt (q0 := []) (fun x hx => by cases hx) hq k hk
  obtain ⟨_, h2, h3, h4⟩ := h
  rw [List.map_nil, List.append_nil] at h2 h3
  have e1 : ∀ k, (plan fp dev job 0 cpt [] k).queue = [] ∧ (plan fp dev job 0 cpt [] k).live = [] := by
    intro k
    have := plan_done fp dev job 0 cpt [] (k := 0) ⟨rfl, rfl⟩ k
    rw [Nat.zero_add] at this
    exact this
  rw [(e1 k).1, List.map_nil, List.append_nil] at h2
  rw [(e1 k).2, List.map_nil] at h3
  exact ⟨h2, h3⟩

end NPE
