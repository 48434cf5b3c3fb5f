import Verif.Proofs.FluidShared

/-
Unrelated traffic does not change what the order-free description gives.
-/

namespace NPE
open NPE.Spec NPE.Spec.Fluid

/-- States that agree on the transfers of the smaller workload. -/
def Agree (n : Nat) (f : Nat → Nat) (σ σ' : Fluid.State) : Prop := ∀ i, i < n → σ' (f i) = σ i

structure Frame (n : Nat) (f : Nat → Nat) (job job' : Nat → Job) : Prop where
  data : ∀ i, i < n → SameData (job i).t (job' (f i)).t
  route : ∀ i, i < n → (job' (f i)).route = (job i).route
  after : ∀ i, i < n → (job' (f i)).after = (job i).after.map fun p => (f p.1, p.2)
  closed : ∀ i, i < n → ∀ j d, (job i).after = some (j, d) → j < n

theorem Spec.SameData.offset {t u : Transfer} (h : SameData t u) : u.offset = t.offset := by
  unfold SameData at h; rw [← h]

theorem Spec.SameData.bytes {t u : Transfer} (h : SameData t u) : u.totalBytes = t.totalBytes := by
  unfold SameData at h; rw [← h]

section
variable {n : Nat} {f : Nat → Nat} {job job' : Nat → Job}

theorem Frame.begins_eq (F : Frame n f job job') {σ σ' : Fluid.State} (h : Agree n f σ σ') {curr i : Nat} (hi : i < n) :
    begins job' curr σ' (f i) = begins job curr σ i := by
  unfold Fluid.begins
  rw [h i hi, (F.data i hi).offset, F.after i hi]
  cases ha : (job i).after with
  | none => rfl
  | some p =>
    obtain ⟨j, d⟩ := p
    simp only [Option.map_some]
    rw [h j (F.closed i hi j d ha)]

theorem Frame.start_eq (F : Frame n f job job') {σ σ' : Fluid.State} (h : Agree n f σ σ') (curr : Nat) :
    Agree n f (start job curr σ) (start job' curr σ') := by
  intro i hi
  unfold Fluid.start
  rw [F.begins_eq h hi, h i hi]

theorem Frame.credit_eq (F : Frame n f job job') {σ σ' : Fluid.State} (h : Agree n f σ σ') {cpt curr i c : Nat}
    (hi : i < n) : credit job' cpt curr σ' (f i) c = credit job cpt curr σ i c := by
  unfold Fluid.credit
  rw [F.after i hi]
  cases ha : (job i).after with
  | none => rfl
  | some p =>
    obtain ⟨j, d⟩ := p
    simp only [Option.map_some]
    rw [h j (F.closed i hi j d ha)]

theorem Frame.advance_eq (F : Frame n f job job') {fl : ℚ → ℚ} {cpt curr : Nat} {speed speed' : Speed}
    (hs : ∀ σ σ', Agree n f σ σ' → ∀ i, i < n → speed' curr σ' (f i) = speed curr σ i)
    {σ σ' : Fluid.State} (h : Agree n f σ σ') :
    Agree n f (advance fl job cpt speed curr σ) (advance fl job' cpt speed' curr σ') := by
  intro i hi
  unfold Fluid.advance
  rw [h i hi]
  cases hσ : σ i with
  | waiting => rfl
  | finished c e => rfl
  | active c m =>
    simp only
    rw [F.credit_eq h hi, hs σ σ' h i hi, (F.data i hi).bytes]

theorem Frame.run_eq (F : Frame n f job job') {fl : ℚ → ℚ} {cpt : Nat} {speed speed' : Speed}
    (hs : ∀ curr σ σ', Agree n f σ σ' → ∀ i, i < n → speed' curr σ' (f i) = speed curr σ i) (k : Nat) :
    Agree n f (run fl job cpt speed k) (run fl job' cpt speed' k) := by
  induction k with
  | zero => intro i _; rfl
  | succ k ih => exact F.advance_eq (hs _) (F.start_eq ih _)

theorem own_same (fp : FP) (dev : Device) {t u : Transfer} (h : SameData t u) : own fp dev u = own fp dev t := by
  unfold SameData at h; rw [← h]; rfl

theorem Frame.alone_eq (F : Frame n f job job') (fp : FP) (dev : Device) (curr : Nat) (σ σ' : Fluid.State) (i : Nat)
    (hi : i < n) : alone fp dev job' curr σ' (f i) = alone fp dev job curr σ i := own_same fp dev (F.data i hi)

/-- Load of a resource that only the smaller workload uses. -/
theorem Frame.load_eq (F : Frame n f job job') (hf : Function.Injective f) {n' : Nat} (hn : ∀ i, i < n → f i < n')
    (dev : Device) {cpt curr : Nat} {w : TState → Nat}
    (hw : ∀ t u : TState, SameData t.params u.params → t.route = u.route → w u = w t)
    (hz : ∀ i', i' < n' → (∀ i, i < n → f i ≠ i') → ∀ c, w ((job' i').began c) = 0)
    {σ σ' : Fluid.State} (h : Agree n f σ σ') :
    load dev job' n' cpt w curr σ' = load dev job n cpt w curr σ := by
  unfold Fluid.load
  rw [← List.sum_toFinset _ List.nodup_range, ← List.sum_toFinset _ List.nodup_range]
  have himg : ((List.range n).toFinset.image f) ⊆ (List.range n').toFinset := by
    intro x hx
    obtain ⟨i, hi, rfl⟩ := Finset.mem_image.mp hx
    rw [List.mem_toFinset, List.mem_range] at hi ⊢
    exact hn i hi
  rw [← Finset.sum_subset himg, Finset.sum_image (fun a _ b _ e => hf e)]
  · refine Finset.sum_congr rfl fun i hi => ?_
    rw [List.mem_toFinset, List.mem_range] at hi
    rw [h i hi]
    cases σ i with
    | waiting => rfl
    | finished c e => rfl
    | active c m =>
      simp only
      rw [hw ((job i).began c) ((job' (f i)).began c) (F.data i hi) (F.route i hi).symm, own_same .exact dev (F.data i hi)]
      rfl
  · intro i' hi' hni
    rw [List.mem_toFinset, List.mem_range] at hi'
    have hne : ∀ i, i < n → f i ≠ i' := fun i hi e =>
      hni (Finset.mem_image.mpr ⟨i, by rw [List.mem_toFinset, List.mem_range]; exact hi, e⟩)
    cases σ' i' with
    | waiting => rfl
    | finished c e => rfl
    | active c m =>
      simp only
      rw [hz i' hi' hne c]
      simp

/-- Resources of the smaller workload that no further transfer uses. -/
structure Private (dev : Device) (n n' : Nat) (f : Nat → Nat) (job job' : Nat → Job) : Prop where
  links : ∀ i', i' < n' → (∀ i, i < n → f i ≠ i') → ∀ i, i < n → ∀ l ∈ (job i).route, l ∉ (job' i').route
  sources : ∀ i', i' < n' → (∀ i, i < n → f i ≠ i') → ∀ i, i < n → ∀ c,
    leaves dev (job i).t.noc (job i).t.src ((job' i').began c) = 0
  sinks : ∀ i', i' < n' → (∀ i, i < n → f i ≠ i') → ∀ i, i < n → ∀ d, (job i).t.dst = .unicast d → ∀ c,
    reaches dev (job i).t.noc d ((job' i').began c) = 0

theorem Frame.shared_eq (F : Frame n f job job') (hf : Function.Injective f) {n' : Nat} (hn : ∀ i, i < n → f i < n')
    {dev : Device} (P : Private dev n n' f job job') {cpt curr : Nat} {σ σ' : Fluid.State} (h : Agree n f σ σ') {i : Nat}
    (hi : i < n) : shared dev job' n' cpt curr σ' (f i) = shared dev job n cpt curr σ i := by
  have hl : ∀ l ∈ (job i).route, load dev job' n' cpt (fun u => u.route.count l) curr σ' =
      load dev job n cpt (fun u => u.route.count l) curr σ := by
    intro l hlm
    refine F.load_eq hf hn dev (fun t u _ e => by simp only [e]) ?_ h
    intro i' hi' hne c
    exact List.count_eq_zero_of_not_mem (P.links i' hi' hne i hi l hlm)
  have hs : load dev job' n' cpt (leaves dev (job i).t.noc (job i).t.src) curr σ' =
      load dev job n cpt (leaves dev (job i).t.noc (job i).t.src) curr σ := by
    refine F.load_eq hf hn dev (fun t u e _ => ?_) (fun i' hi' hne c => P.sources i' hi' hne i hi c) h
    unfold SameData at e
    unfold leaves
    rw [← e]
  have hk : ∀ d, (job i).t.dst = .unicast d → load dev job' n' cpt (reaches dev (job i).t.noc d) curr σ' =
      load dev job n cpt (reaches dev (job i).t.noc d) curr σ := by
    intro d hd
    refine F.load_eq hf hn dev (fun t u e _ => ?_) (fun i' hi' hne c => P.sinks i' hi' hne i hi d hd c) h
    unfold SameData at e
    unfold reaches
    rw [← e]
  have hd := F.data i hi
  have e1 : (job' (f i)).t.noc = (job i).t.noc := by unfold SameData at hd; rw [← hd]
  have e2 : (job' (f i)).t.src = (job i).t.src := by unfold SameData at hd; rw [← hd]
  have e3 : (job' (f i)).t.dst = (job i).t.dst := by unfold SameData at hd; rw [← hd]
  have e4 : (job' (f i)).t.injectionRate = (job i).t.injectionRate := by unfold SameData at hd; rw [← hd]
  unfold Fluid.shared
  simp only
  rw [own_same .exact dev hd, F.route i hi, e1, e2, e3, e4, hs, List.map_congr_left hl]
  cases hdst : (job i).t.dst with
  | mcast gs => rfl
  | unicast d => simp only; rw [hk d hdst]

end

/-! ### Waiting -/

/-- `parentOf` is the last segment with the index that the transfer names. -/
theorem parentOf_last {ts : List TState} (hd : DenseTs ts) {t : Transfer} (hp : HasParent t) {j0 : Nat} {p0 : TState}
    (h0 : ts[j0]? = some p0) (hp0 : IsParent p0.params t) (j : Nat) :
    parentOf (groupMap ts) t = j ↔ (∃ p, ts[j]? = some p ∧ IsParent p.params t) ∧
      ∀ (j' : Nat) (p' : TState), ts[j']? = some p' → IsParent p'.params t → j' ≤ j := by
  -- the value found is such a segment
  have key : ∀ (l : List TState) (off : Nat), (∀ (k : Nat) (u : TState), l[k]? = some u → u.params.id = off + k) →
      (∃ u ∈ l, IsParent u.params t) →
      ∃ (k : Nat) (u : TState), l[k]? = some u ∧ IsParent u.params t ∧
        (∀ (k' : Nat) (u' : TState), l[k']? = some u' → IsParent u'.params t → k' ≤ k) ∧
        (groupMap l).lookup (t.groupId, t.groupParent) = some (off + k) := by
    intro l
    induction l using List.reverseRecOn with
    | nil => rintro off _ ⟨u, hu, _⟩; simp at hu
    | append_singleton l u ih =>
      intro off hid hex
      have hidl : ∀ (k : Nat) (v : TState), l[k]? = some v → v.params.id = off + k := by
        intro k v hv
        refine hid k v ?_
        rw [List.getElem?_append_left (List.getElem?_eq_some_iff.mp hv).1]; exact hv
      have hlast : (l ++ [u])[l.length]? = some u := by simp
      have hu := hid _ _ hlast
      by_cases hup : IsParent u.params t
      · refine ⟨l.length, u, hlast, hup, ?_, ?_⟩
        · intro k' u' h' _
          have := (List.getElem?_eq_some_iff.mp h').1
          simp only [List.length_append, List.length_singleton] at this
          omega
        · obtain ⟨g1, g2, g3⟩ := hup
          have g4 : u.params.groupId ≠ -1 := by rw [g1]; exact hp.1
          unfold groupMap
          rw [List.filter_append, List.map_append, List.reverse_append]
          have : ([u].filter fun t => decide (t.params.groupId ≠ -1 ∧ t.params.groupIdx ≠ -1)) = [u] := by
            simp [g4, g3]
          rw [this]
          simp only [List.map_cons, List.map_nil, List.reverse_cons, List.reverse_nil, List.nil_append,
            List.singleton_append, List.lookup_cons]
          rw [g1, g2]
          simp only [beq_self_eq_true]
          congr 1
          omega
      · have hex' : ∃ v ∈ l, IsParent v.params t := by
          obtain ⟨v, hv, hvp⟩ := hex
          rcases List.mem_append.mp hv with h | h
          · exact ⟨v, h, hvp⟩
          · rw [List.mem_singleton] at h
            subst h
            exact absurd hvp hup
        obtain ⟨k, v, h1, h2, h3, h4⟩ := ih off hidl hex'
        refine ⟨k, v, ?_, h2, ?_, ?_⟩
        · rw [List.getElem?_append_left (List.getElem?_eq_some_iff.mp h1).1]; exact h1
        · intro k' u' h' hp'
          have hlt := (List.getElem?_eq_some_iff.mp h').1
          simp only [List.length_append, List.length_singleton] at hlt
          by_cases hk : k' = l.length
          · subst hk
            rw [hlast] at h'
            rw [← Option.some.inj h'] at hp'
            exact absurd hp' hup
          · rw [List.getElem?_append_left (by omega)] at h'
            exact h3 k' u' h' hp'
        · rw [← h4]
          unfold groupMap
          rw [List.filter_append, List.map_append, List.reverse_append]
          by_cases hg : u.params.groupId ≠ -1 ∧ u.params.groupIdx ≠ -1
          · have : ([u].filter fun t => decide (t.params.groupId ≠ -1 ∧ t.params.groupIdx ≠ -1)) = [u] := by
              simp [hg.1, hg.2]
            rw [this]
            simp only [List.map_cons, List.map_nil, List.reverse_cons, List.reverse_nil, List.nil_append,
              List.singleton_append, List.lookup_cons]
            have hne : ((t.groupId, t.groupParent) == (u.params.groupId, u.params.groupIdx)) = false := by
              rw [beq_eq_false_iff_ne]
              intro e
              rw [Prod.mk.injEq] at e
              exact hup ⟨e.1.symm, e.2.symm, hg.2⟩
            rw [hne]
          · have : ([u].filter fun t => decide (t.params.groupId ≠ -1 ∧ t.params.groupIdx ≠ -1)) = [] := by
              rw [List.filter_eq_nil_iff]
              intro a ha
              rw [List.mem_singleton] at ha
              subst ha
              simpa using hg
            rw [this]
            simp
  obtain ⟨k, u, h1, h2, h3, h4⟩ := key ts 0 (fun k u hu => by rw [hd k u hu]; simp) ⟨p0, List.mem_of_getElem? h0, hp0⟩
  have e : parentOf (groupMap ts) t = k := by
    unfold parentOf
    rw [h4]
    simp
  rw [e]
  constructor
  · rintro rfl
    exact ⟨⟨u, h1, h2⟩, h3⟩
  · rintro ⟨⟨p, h5, h6⟩, h7⟩
    exact le_antisymm (h7 k u h1 h2) (h3 j p h5 h6)

end NPE
