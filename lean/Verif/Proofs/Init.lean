import Verif.Proofs.Deps
import Verif.Proofs.Workload

/-
The state before the first timestep.
-/

namespace NPE

/-- Slots of `initTransferState`: a filled slot holds the fresh state of a transfer with that
id. -/
def SlotOk (dev : Device) (ord : List Int → List Int) (l : List Transfer) (i : Nat) (t : TState) :
    Prop :=
  t.params ∈ l ∧ t.params.id = i ∧
  ∃ r, dev.route ord t.params.noc t.params.src t.params.dst = .ok r ∧
    t = { params := t.params, route := r, start := t.params.offset }

theorem foldlM_initOne {dev : Device} {ord : List Int → List Int} {n : Nat} :
    ∀ (l done : List Transfer) (slots slots' : List (Option TState)),
    Out.foldlM (initOne dev ord n) slots l = .ok slots' →
    (∀ (i : Nat) (t : TState), slots[i]? = some (some t) → SlotOk dev ord done i t) →
    slots'.length = slots.length ∧
    ∀ (i : Nat) (t : TState), slots'[i]? = some (some t) → SlotOk dev ord (done ++ l) i t := by
  intro l
  induction l with
  | nil =>
    intro done slots slots' h hs
    simp only [Out.foldlM_nil, Out.ok.injEq] at h
    subst h
    exact ⟨rfl, by simpa using hs⟩
  | cons tr l ih =>
    intro done slots slots' h hs
    rw [Out.foldlM_cons] at h
    obtain ⟨s1, h1, h⟩ := Out.bind_eq_ok.mp h
    unfold initOne at h1
    obtain ⟨_, ha, h1⟩ := Out.bind_eq_ok.mp h1
    rw [Out.assert_eq_ok, Bool.and_eq_true, decide_eq_true_eq, decide_eq_true_eq] at ha
    obtain ⟨r, hr, h1⟩ := Out.bind_eq_ok.mp h1
    simp only [Out.pure_eq, Out.ok.injEq] at h1
    have := ih (done ++ [tr]) s1 slots' h (by
      intro i t hit
      rw [← h1] at hit
      rcases getElem?_set' hit with ⟨h2, h3⟩ | ⟨h2, h3⟩
      · have h3 := Option.some.inj h3
        subst h3
        exact ⟨by simp, by simp only; omega, r, hr, rfl⟩
      · obtain ⟨a, b⟩ := hs i t h3
        exact ⟨by simp [a], b⟩)
    rw [List.append_assoc] at this
    rw [← h1, List.length_set] at this
    exact this

theorem initTransferState_ok {dev : Device} {ord : List Int → List Int} {wl : Workload}
    {ts : List TState} (h : initTransferState dev ord wl = .ok ts) :
    ts.length = wl.transfers.length ∧
    ∀ (i : Nat) (t : TState), ts[i]? = some t → SlotOk dev ord wl.transfers i t := by
  unfold initTransferState at h
  obtain ⟨slots, h1, h⟩ := Out.bind_eq_ok.mp h
  obtain ⟨hl, hs⟩ := foldlM_initOne wl.transfers [] _ _ h1 (by
    intro i t hit
    rw [List.getElem?_replicate] at hit
    split at hit <;> simp at hit)
  rw [Out.mapM_eq_ok] at h
  refine ⟨by rw [← h.length_eq, hl]; simp, ?_⟩
  intro i t hit
  have hlt := (List.getElem?_eq_some_iff.mp hit).1
  have hlt' : i < slots.length := by rw [h.length_eq]; exact hlt
  have h2 := (List.forall₂_iff_get.mp h).2 i hlt' hlt
  simp only [List.get_eq_getElem] at h2
  apply hs i t
  rw [List.getElem?_eq_getElem hlt']
  have h3 := (List.getElem?_eq_some_iff.mp hit).2
  rw [h3] at h2
  cases hx : slots[i] with
  | none => rw [hx] at h2; simp at h2
  | some t' =>
    rw [hx] at h2
    simp only [Out.ok.injEq] at h2
    rw [h2]

theorem init_fresh {dev : Device} {ord : List Int → List Int} {wl : Workload}
    {ts : List TState} (h : initTransferState dev ord wl = .ok ts) : Fresh ts ∧ DenseTs ts := by
  have h := (initTransferState_ok h).2
  constructor
  · intro t ht
    obtain ⟨i, hi⟩ := List.mem_iff_getElem?.mp ht
    obtain ⟨_, _, r, _, e⟩ := h i t hi
    rw [e]; exact ⟨rfl, rfl⟩
  · intro i t hi
    exact (h i t hi).2.1

/-- With dense ids the simulated transfers are those of the workload, in order. -/
theorem init_params {dev : Device} {ord : List Int → List Int} {wl : Workload}
    {ts : List TState} (hw : wl.Dense) (h : initTransferState dev ord wl = .ok ts) :
    ts.map (·.params) = wl.transfers := by
  obtain ⟨hl, hs⟩ := initTransferState_ok h
  have hids : ∀ (i : Nat) (tr : Transfer), wl.transfers[i]? = some tr → tr.id = i := by
    intro i tr hi
    have h1 := hw.ids
    have h2 : (wl.transfers.map (·.id))[i]? = some tr.id := by simp [hi]
    rw [h1] at h2
    have hlt := (List.getElem?_eq_some_iff.mp hi).1
    rw [← hw.gbl] at hlt
    rw [List.getElem?_map, List.getElem?_range hlt] at h2
    simpa using h2.symm
  apply List.ext_getElem?
  intro i
  rw [List.getElem?_map]
  rcases lt_or_ge i ts.length with hi | hi
  · have h1 : ts[i]? = some ts[i] := List.getElem?_eq_getElem hi
    obtain ⟨hm, hid, _⟩ := hs i _ h1
    obtain ⟨j, hj⟩ := List.mem_iff_getElem?.mp hm
    have := hids j _ hj
    have : j = i := by omega
    subst this
    rw [h1, hj]; rfl
  · rw [List.getElem?_eq_none hi, List.getElem?_eq_none (by omega)]; rfl

/-- The queue holds every transfer once, latest first. -/
theorem createTransferQueue_spec {ts : List TState} (hd : DenseTs ts) :
    (createTransferQueue ts).Pairwise (fun a b => b.1 ≤ a.1) ∧
    ((createTransferQueue ts).map (·.2)).Perm (List.range ts.length) ∧
    ∀ x ∈ createTransferQueue ts, ∃ t, ts[x.2]? = some t ∧ x.1 = t.params.offset := by
  have hperm := sortBy_perm (fun a b : Nat × Nat => decide (b.1 < a.1 ∨ (b.1 = a.1 ∧ b.2 ≤ a.2)))
    (ts.map fun t => (t.params.offset, t.params.id.toNat))
  refine ⟨?_, ?_, ?_⟩
  · have := sortBy_pairwise (le := fun a b : Nat × Nat =>
      decide (b.1 < a.1 ∨ (b.1 = a.1 ∧ b.2 ≤ a.2)))
      (by intro a b h; simp only [decide_eq_false_iff_not, decide_eq_true_eq] at h ⊢; omega)
      (by intro a b c h1 h2; simp only [decide_eq_true_eq] at h1 h2 ⊢; omega)
      (ts.map fun t => (t.params.offset, t.params.id.toNat))
    refine List.Pairwise.imp ?_ this
    intro a b h
    simp only [decide_eq_true_eq] at h
    omega
  · refine (hperm.map (·.2)).trans ?_
    rw [List.map_map]
    have : ts.map ((fun x : Nat × Nat => x.2) ∘ fun t => (t.params.offset, t.params.id.toNat)) =
        List.range ts.length := by
      apply List.ext_getElem?
      intro i
      rw [List.getElem?_map]
      rcases lt_or_ge i ts.length with hi | hi
      · have := hd i _ (List.getElem?_eq_getElem hi)
        rw [List.getElem?_range hi, List.getElem?_eq_getElem hi]
        simp [this]
      · rw [List.getElem?_eq_none hi, List.getElem?_eq_none (by simpa using hi)]; rfl
    rw [this]
  · intro x hx
    obtain ⟨t, ht, rfl⟩ := List.mem_map.mp (hperm.subset hx)
    obtain ⟨i, hi⟩ := List.mem_iff_getElem?.mp ht
    have := hd i t hi
    exact ⟨t, by simp [this, hi], rfl⟩

/-- The shape of the initial state. -/
structure Initial (fp : FP) (dev : Device) (ho : HashOrder) (wl : Workload) (s : Sim) : Prop where
  dense : DenseTs s.ts
  len : s.ts.length = wl.transfers.length
  live : s.live = []
  sorted : s.queue.Pairwise (fun a b => b.1 ≤ a.1)
  queue : (s.queue.map (·.2)).Perm (List.range s.ts.length)
  slots : ∀ (i : Nat) (t : TState), s.ts[i]? = some t → t.params ∈ wl.transfers ∧
    dev.route ho.links t.params.noc t.params.src t.params.dst = .ok t.route ∧
    t.start = t.params.offset ∧ t.endc = 0 ∧ t.bw = 0 ∧ t.moved = 0
  offs : ∀ x ∈ s.queue, ∃ t, s.ts[x.2]? = some t ∧ x.1 = t.params.offset
  grids : s.grids = initGrids dev
  stats : s.stats = Stats.init dev

theorem initSim_ok {fp : FP} {dev : Device} {ho : HashOrder} {wl : Workload} {s : Sim}
    (h : initSim fp dev ho wl = .ok s) :
    Initial fp dev ho wl s ∧ ∃ ts, initTransferState dev ho.links wl = .ok ts ∧
      genDependencies fp dev ho.buckets ts = .ok (s.ts, s.deps) := by
  unfold initSim at h
  obtain ⟨ts, h1, h⟩ := Out.bind_eq_ok.mp h
  obtain ⟨⟨ts', tk⟩, h2, h⟩ := Out.bind_eq_ok.mp h
  simp only [Out.pure_eq, Out.ok.injEq] at h
  obtain ⟨hf, hd⟩ := init_fresh h1
  obtain ⟨hl, hs⟩ := initTransferState_ok h1
  obtain ⟨e1, e2, hE, _, _⟩ := gen_ok hf hd h2
  obtain ⟨q1, q2, q3⟩ := createTransferQueue_spec hd
  have hts : s.ts = tsOf ts (allEdges fp dev ho.buckets ts) := by rw [← h, ← e1]
  have hlen : s.ts.length = ts.length := by rw [hts, tsOf_length]
  have hq : s.queue = createTransferQueue ts := by rw [← h]
  refine ⟨?_, ts, h1, ?_⟩
  · constructor
    · intro i t hi
      rw [hts] at hi
      obtain ⟨t0, h0, e⟩ := tsOf_get.mp hi
      rw [e]; exact hd i t0 h0
    · rw [hlen, hl]
    · rw [← h]
    · rw [hq]; exact q1
    · rw [hlen, hq]; exact q2
    · intro i t hi
      rw [hts] at hi
      obtain ⟨t0, h0, e⟩ := tsOf_get.mp hi
      obtain ⟨hm, _, r, hr, e'⟩ := hs i t0 h0
      have hr' : t0.route = r := by rw [e']
      have h1 : t0.start = t0.params.offset := by rw [e']
      have h2 : t0.endc = 0 := by rw [e']
      have h3 : t0.bw = 0 := by rw [e']
      have h4 : t0.moved = 0 := by rw [e']
      rw [e]
      exact ⟨hm, by rw [← hr'] at hr; exact hr, h1, h2, h3, h4⟩
    · intro x hx
      rw [hq] at hx
      obtain ⟨t, ht, e⟩ := q3 x hx
      rw [hts]
      exact ⟨_, tsOf_get.mpr ⟨t, ht, rfl⟩, e⟩
    · rw [← h]
    · rw [← h]
  · rw [h2, ← h]

/-- The invariant holds before the first timestep. -/
theorem init_inv {fp : FP} {dev : Device} {ho : HashOrder} {wl : Workload} {s : Sim}
    (h : initSim fp dev ho wl = .ok s) : Inv 0 s := by
  obtain ⟨hi, ts, h1, h2⟩ := initSim_ok h
  obtain ⟨hf, hd⟩ := init_fresh h1
  obtain ⟨e1, e2, hE, _, _⟩ := gen_ok hf hd h2
  have hmem : ∀ i, i < s.ts.length → i ∈ s.queue.map (·.2) := fun i hlt =>
    hi.queue.symm.subset (List.mem_range.mpr hlt)
  have hlt : ∀ (i : Nat) (t : TState), s.ts[i]? = some t → i < s.ts.length := fun i t hi =>
    (List.getElem?_eq_some_iff.mp hi).1
  constructor
  · rw [hi.live, List.append_nil]
    exact hi.queue.nodup_iff.mpr List.nodup_range
  · rw [hi.live, List.append_nil]
    intro i hm
    exact List.mem_range.mp (hi.queue.subset hm)
  · exact ⟨s.queue, [], by simp, hi.sorted, by simp⟩
  · intro x hx t ht
    obtain ⟨t', ht', e⟩ := hi.offs x hx
    rw [ht] at ht'
    rw [← Option.some.inj ht'] at e
    obtain ⟨_, _, h3, _, _, h4⟩ := hi.slots _ _ ht
    exact ⟨e, h3, h4⟩
  · intro i t ht hq
    exact absurd (hmem i (hlt i t ht)) hq
  · intro i t ht
    rw [(hi.slots i t ht).2.2.2.2.2]; omega
  · intro i t ht hq
    exact absurd (hmem i (hlt i t ht)) hq
  · rw [e1]; exact flatMap_prov_nodup _ _
  · intro p t hp j hj
    rw [e1] at hp
    obtain ⟨t0, _, rfl⟩ := tsOf_get.mp hp
    obtain ⟨k, e, _, _, rfl⟩ := mem_provIdx.mp hj
    omega
  · intro i t ht hne
    rw [e1] at ht
    obtain ⟨t0, ht0, rfl⟩ := tsOf_get.mp ht
    rcases lastIdx_spec (allEdges fp dev ho.buckets ts) i with ⟨h3, _⟩ | ⟨k, e, hk, hc, h3, _⟩
    · exact absurd h3 hne
    · have hp := (hE e (List.mem_of_getElem? hk)).1
      refine ⟨e.p, _, by rw [e1]; exact tsOf_get.mpr ⟨ts[e.p], List.getElem?_eq_getElem hp, rfl⟩, ?_⟩
      simp only
      rw [h3]
      exact mem_provIdx.mpr ⟨k, e, hk, rfl, rfl⟩
  · intro p t hp j hj
    have hpq := hmem p (hlt p t hp)
    rw [e1] at hp
    obtain ⟨t0, _, rfl⟩ := tsOf_get.mp hp
    obtain ⟨k, e, hk, _, rfl⟩ := mem_provIdx.mp hj
    refine ⟨⟨0, 1, 0, e.d⟩, ?_, rfl, fun _ => ⟨rfl, rfl⟩, fun hc => absurd hpq hc.1⟩
    rw [e2, Int.toNat_natCast]
    unfold tkOf
    rw [List.getElem?_map, hk]; rfl

/-- The simulated transfers are those of the workload. -/
theorem init_perm {dev : Device} {ord : List Int → List Int} {wl : Workload}
    {ts : List TState} (h : initTransferState dev ord wl = .ok ts) :
    (ts.map (·.params)).Perm wl.transfers := by
  obtain ⟨hl, hs⟩ := initTransferState_ok h
  have hnd : (ts.map (·.params)).Nodup := by
    rw [List.nodup_iff_injective_getElem]
    intro ⟨i, hi⟩ ⟨j, hj⟩ he
    simp only [List.getElem_map] at he
    rw [List.length_map] at hi hj
    have h1 := (hs i _ (List.getElem?_eq_getElem hi)).2.1
    have h2 := (hs j _ (List.getElem?_eq_getElem hj)).2.1
    rw [he] at h1
    simp only [Fin.mk.injEq]
    omega
  have hsub : ∀ x ∈ ts.map (·.params), x ∈ wl.transfers := by
    intro x hx
    obtain ⟨t, ht, rfl⟩ := List.mem_map.mp hx
    obtain ⟨i, hi⟩ := List.mem_iff_getElem?.mp ht
    exact (hs i t hi).1
  exact (List.subperm_of_subset hnd hsub).perm_of_length_le (by simp [hl])

end NPE
