import Verif.Proofs.Engine
import Verif.Proofs.Sort

/-
Dependency generation as a list of edges.
-/

namespace NPE

/-- "Transfer `c` waits for transfer `p` plus `d` cycles". -/
structure Edge where
  p : Nat
  c : Nat
  d : Nat
  deriving DecidableEq, Repr

/-- The checkpoint that transfer `c` waits for: that of the last edge into `c`. -/
def lastIdx (E : List Edge) (c : Nat) : Int :=
  match E.zipIdx.reverse.find? (fun x => x.1.c = c) with
  | some x => x.2
  | none => -1

/-- The checkpoints that transfer `p` provides. -/
def provIdx (E : List Edge) (p : Nat) : List Int :=
  (E.zipIdx.filter (fun x => x.1.p = p)).map (fun x => (x.2 : Int))

/-- The transfers with the dependencies of an edge list. -/
def tsOf (ts : List TState) (E : List Edge) : List TState :=
  ts.mapIdx fun i t => { t with dependsOn := lastIdx E i, requiredBy := provIdx E i }

/-- The tracker of an edge list. -/
def tkOf (E : List Edge) : Tracker := E.map fun e => ⟨0, 1, 0, e.d⟩

theorem lastIdx_append (E : List Edge) (e : Edge) (c : Nat) :
    lastIdx (E ++ [e]) c = if e.c = c then (E.length : Int) else lastIdx E c := by
  unfold lastIdx
  rw [List.zipIdx_append, List.reverse_append]
  simp only [List.zipIdx_singleton, List.reverse_singleton, List.singleton_append, Nat.zero_add,
    List.find?_cons]
  by_cases h : e.c = c <;> simp [h]

theorem provIdx_append (E : List Edge) (e : Edge) (p : Nat) :
    provIdx (E ++ [e]) p = provIdx E p ++ (if e.p = p then [(E.length : Int)] else []) := by
  unfold provIdx
  rw [List.zipIdx_append, List.filter_append, List.map_append]
  by_cases h : e.p = p <;> simp [h]

theorem mem_provIdx {E : List Edge} {p : Nat} {j : Int} :
    j ∈ provIdx E p ↔ ∃ (k : Nat) (e : Edge), E[k]? = some e ∧ e.p = p ∧ j = k := by
  unfold provIdx
  simp only [List.mem_map, List.mem_filter, decide_eq_true_eq]
  constructor
  · rintro ⟨⟨e, k⟩, ⟨h1, h2⟩, h3⟩
    rw [List.mem_zipIdx_iff_getElem?] at h1
    exact ⟨k, e, h1, h2, h3.symm⟩
  · rintro ⟨k, e, h1, h2, h3⟩
    exact ⟨(e, k), ⟨List.mem_zipIdx_iff_getElem?.mpr h1, h2⟩, h3.symm⟩

/-- The dependency of `c` is the last edge into `c`, if there is one. -/
theorem lastIdx_spec (E : List Edge) (c : Nat) :
    (lastIdx E c = -1 ∧ ∀ e ∈ E, e.c ≠ c) ∨
    ∃ (k : Nat) (e : Edge), E[k]? = some e ∧ e.c = c ∧ lastIdx E c = k ∧
      ∀ (k' : Nat) (e' : Edge), k < k' → E[k']? = some e' → e'.c ≠ c := by
  induction E using List.reverseRecOn with
  | nil => left; simp [lastIdx]
  | append_singleton E e ih =>
    rw [lastIdx_append]
    by_cases h : e.c = c
    · right
      refine ⟨E.length, e, by simp, h, by simp [h], ?_⟩
      intro k' e' hk he
      have := (List.getElem?_eq_some_iff.mp he).1
      simp at this
      omega
    · rw [if_neg h]
      rcases ih with ⟨h1, h2⟩ | ⟨k, e1, h1, h2, h3, h4⟩
      · left
        refine ⟨h1, ?_⟩
        intro e' he'
        rcases List.mem_append.mp he' with he' | he'
        · exact h2 e' he'
        · simp at he'; subst he'; exact h
      · right
        have hk := (List.getElem?_eq_some_iff.mp h1).1
        refine ⟨k, e1, by rw [List.getElem?_append_left hk]; exact h1, h2, h3, ?_⟩
        intro k' e' hk' he'
        rcases lt_or_ge k' E.length with hl | hl
        · rw [List.getElem?_append_left hl] at he'
          exact h4 k' e' hk' he'
        · rw [List.getElem?_append_right hl] at he'
          have : e' = e := by
            rcases hx : k' - E.length with _ | n
            · simp [hx] at he'; exact he'.symm
            · simp [hx] at he'
          rw [this]; exact h

theorem tsOf_length (ts : List TState) (E : List Edge) : (tsOf ts E).length = ts.length := by
  simp [tsOf]

theorem tsOf_get {ts : List TState} {E : List Edge} {i : Nat} {t : TState} :
    (tsOf ts E)[i]? = some t ↔ ∃ t0, ts[i]? = some t0 ∧
      t = { t0 with dependsOn := lastIdx E i, requiredBy := provIdx E i } := by
  unfold tsOf
  rw [List.getElem?_mapIdx]
  constructor
  · intro h
    obtain ⟨t0, h1, h2⟩ := Option.map_eq_some_iff.mp h
    exact ⟨t0, h1, h2.symm⟩
  · rintro ⟨t0, h1, h2⟩
    rw [h1, h2]; rfl

/-- A fresh transfer list has no dependencies. -/
def Fresh (ts : List TState) : Prop := ∀ t ∈ ts, t.dependsOn = -1 ∧ t.requiredBy = []

theorem tsOf_nil {ts : List TState} (h : Fresh ts) : tsOf ts [] = ts := by
  apply List.ext_getElem?
  intro i
  unfold tsOf
  rw [List.getElem?_mapIdx]
  cases ht : ts[i]? with
  | none => rfl
  | some t =>
    have := h t (List.mem_of_getElem? ht)
    obtain ⟨p, r, st, en, bw, mv, d, rb⟩ := t
    simp only at this
    simp [lastIdx, provIdx, this.1, this.2]

/-- `addDep` appends one edge. -/
theorem addDep_eq (ts : List TState) (E : List Edge) (p c d : Nat)
    (hp : p < ts.length) (hc : c < ts.length) :
    addDep (tsOf ts E, tkOf E) p c d = .ok (tsOf ts (E ++ [⟨p, c, d⟩]), tkOf (E ++ [⟨p, c, d⟩])) := by
  have hcl : c < (tsOf ts E).length := by rw [tsOf_length]; exact hc
  have hgc : (tsOf ts E)[c]? = some { ts[c] with
      dependsOn := lastIdx E c, requiredBy := provIdx E c } :=
    tsOf_get.mpr ⟨ts[c], List.getElem?_eq_getElem hc, rfl⟩
  have hlen : (List.length (tkOf E) : Int) = E.length := by simp [tkOf]
  simp only [addDep, Tracker.create, hgc, hlen]
  have hpl : p < ((tsOf ts E).set c
      { ts[c] with dependsOn := (E.length : Int), requiredBy := provIdx E c }).length := by
    rw [List.length_set, tsOf_length]; exact hp
  rw [List.getElem?_eq_getElem hpl]
  simp only [Out.ok.injEq, Prod.mk.injEq]
  refine ⟨?_, by simp [tkOf]⟩
  apply List.ext_getElem?
  intro i
  rcases lt_or_ge i ts.length with hi | hi
  · have hgi : (tsOf ts (E ++ [⟨p, c, d⟩]))[i]? = some { ts[i] with
        dependsOn := lastIdx (E ++ [⟨p, c, d⟩]) i
        requiredBy := provIdx (E ++ [⟨p, c, d⟩]) i } :=
      tsOf_get.mpr ⟨ts[i], List.getElem?_eq_getElem hi, rfl⟩
    have hgi0 : (tsOf ts E)[i]? = some { ts[i] with
        dependsOn := lastIdx E i, requiredBy := provIdx E i } :=
      tsOf_get.mpr ⟨ts[i], List.getElem?_eq_getElem hi, rfl⟩
    have hgp0 : (tsOf ts E)[p]? = some { ts[p] with
        dependsOn := lastIdx E p, requiredBy := provIdx E p } :=
      tsOf_get.mpr ⟨ts[p], List.getElem?_eq_getElem hp, rfl⟩
    have hil : i < (tsOf ts E).length := by rw [tsOf_length]; exact hi
    rw [hgi, lastIdx_append, provIdx_append]
    rw [List.getElem?_set]
    by_cases hpi : p = i
    · subst hpi
      rw [if_pos rfl, if_pos hpl]
      congr 1
      rw [List.getElem_set]
      by_cases hcp : c = p
      · subst hcp; simp
      · have e := (List.getElem?_eq_some_iff.mp hgp0).2
        simp only [if_neg hcp]
        rw [e]; simp
    · rw [if_neg hpi, List.getElem?_set]
      by_cases hci : c = i
      · subst hci
        rw [if_pos rfl, if_pos hil]; simp [hpi]
      · rw [if_neg hci, hgi0]; simp [hpi, hci]
  · rw [List.getElem?_eq_none (by simpa [tsOf_length] using hi),
      List.getElem?_eq_none (by rw [tsOf_length]; exact hi)]

/-- Out of range indices are never accepted. -/
theorem addDep_ok_range {st st' : List TState × Tracker} {p c d : Nat}
    (h : addDep st p c d = .ok st') : p < st.1.length ∧ c < st.1.length := by
  obtain ⟨ts, tk⟩ := st
  simp only [addDep, Tracker.create] at h
  cases hc : ts[c]? with
  | none => simp [hc] at h
  | some tc =>
    simp only [hc] at h
    have hcl := (List.getElem?_eq_some_iff.mp hc).1
    refine ⟨?_, hcl⟩
    by_contra hp
    rw [List.getElem?_eq_none (by simpa using hp)] at h
    simp at h

/-- Edges of a list of transfer pairs. -/
theorem foldlM_addDep (ts : List TState) : ∀ (l : List ((Nat × Nat) × (Nat × Nat))) (E : List Edge),
    (∀ x ∈ l, x.1.2 < ts.length ∧ x.2.2 < ts.length) →
    Out.foldlM (fun st pc => addDep st pc.1.2 pc.2.2 0) (tsOf ts E, tkOf E) l =
      .ok (tsOf ts (E ++ l.map fun x => ⟨x.1.2, x.2.2, 0⟩),
           tkOf (E ++ l.map fun x => ⟨x.1.2, x.2.2, 0⟩)) := by
  intro l
  induction l with
  | nil => intro E _; simp
  | cons x l ih =>
    intro E h
    rw [Out.foldlM_cons, addDep_eq ts E _ _ _ (h x (by simp)).1 (h x (by simp)).2, Out.bind_ok,
      ih _ (fun y hy => h y (by simp [hy]))]
    simp

/-- Value of a normal return. -/
def Out.getD {α : Type} (d : α) : Out α → α
  | .ok a => a
  | _ => d

theorem Out.getD_of_ok {α : Type} {d a : α} {x : Out α} (h : x = .ok a) : x.getD d = a := by
  rw [h]; rfl

theorem Out.mapM_map {α β : Type} {f : α → Out β} {l : List α} {r : List β} (d : β)
    (h : Out.mapM f l = .ok r) : r = l.map (fun a => (f a).getD d) ∧
      ∀ a ∈ l, f a = .ok ((f a).getD d) := by
  rw [Out.mapM_eq_ok] at h
  induction h with
  | nil => simp
  | cons hab _ ih =>
    refine ⟨?_, ?_⟩
    · rw [List.map_cons, Out.getD_of_ok hab, ← ih.1]
    · intro a ha
      rcases List.mem_cons.mp ha with rfl | ha
      · rw [Out.getD_of_ok hab]; exact hab
      · exact ih.2 a ha

theorem Out.mapM_of_ok {α β : Type} {f : α → Out β} {g : α → β} {l : List α}
    (h : ∀ a ∈ l, f a = .ok (g a)) : Out.mapM f l = .ok (l.map g) := by
  induction l with
  | nil => rfl
  | cons a l ih =>
    rw [Out.mapM_cons, h a (by simp), Out.bind_ok, ih (fun b hb => h b (by simp [hb]))]
    rfl

/-- The bucket of a transfer. -/
def keyT (dev : Device) (t : TState) : BucketKey := (bucketKey dev t).getD (.noc0, 0, 0, 0)

/-- The members of a bucket as pairs (start, id), in id order. -/
def bucketMembers (dev : Device) (ts : List TState) (k : BucketKey) : List (Nat × Nat) :=
  (ts.filter fun t => keyT dev t = k).map fun t => (t.start, t.params.id.toNat)

def sortMembers (l : List (Nat × Nat)) : List (Nat × Nat) :=
  sortBy (fun a b => decide (a.1 ≤ b.1)) l

/-- Edges between members two places apart. -/
def pairEdges (l : List (Nat × Nat)) : List Edge :=
  (l.zip (l.drop 2)).map fun x => ⟨x.1.2, x.2.2, 0⟩

/-- The edges of the first pass. -/
def niuEdges (dev : Device) (bord : List BucketKey → List BucketKey) (ts : List TState) :
    List Edge :=
  (bord (ts.map (keyT dev)).eraseDups).flatMap fun k =>
    pairEdges (sortMembers (bucketMembers dev ts k))

/-- Transfer ids are positions. -/
def DenseTs (ts : List TState) : Prop := ∀ (i : Nat) (t : TState), ts[i]? = some t → t.params.id = i

theorem DenseTs.lt {ts : List TState} (h : DenseTs ts) {t : TState} (ht : t ∈ ts) :
    t.params.id.toNat < ts.length := by
  obtain ⟨i, hi⟩ := List.mem_iff_getElem?.mp ht
  have := h i t hi
  have := (List.getElem?_eq_some_iff.mp hi).1
  omega

theorem mem_bucketMembers {dev : Device} {ts : List TState} {k : BucketKey} {x : Nat × Nat} :
    x ∈ bucketMembers dev ts k ↔ ∃ t ∈ ts, keyT dev t = k ∧ x = (t.start, t.params.id.toNat) := by
  simp only [bucketMembers, List.mem_map, List.mem_filter, decide_eq_true_eq]
  constructor
  · rintro ⟨t, ⟨h1, h2⟩, h3⟩; exact ⟨t, h1, h2, h3.symm⟩
  · rintro ⟨t, h1, h2, h3⟩; exact ⟨t, ⟨h1, h2⟩, h3.symm⟩

theorem mem_zip_of {α : Type} {l m : List α} {x : α × α} (h : x ∈ l.zip m) : x.1 ∈ l ∧ x.2 ∈ m := by
  obtain ⟨a, b⟩ := x
  exact ⟨(List.of_mem_zip h).1, (List.of_mem_zip h).2⟩

theorem chainBucket_eq {dev : Device} {ts : List TState} (hd : DenseTs ts) (E : List Edge)
    (k : BucketKey) :
    chainBucket (tsOf ts E, tkOf E) (bucketMembers dev ts k) =
      .ok (tsOf ts (E ++ pairEdges (sortMembers (bucketMembers dev ts k))),
           tkOf (E ++ pairEdges (sortMembers (bucketMembers dev ts k)))) := by
  unfold chainBucket
  simp only
  rw [foldlM_addDep]
  · rfl
  · intro x hx
    have hx := mem_zip_of hx
    have hm : ∀ y ∈ sortMembers (bucketMembers dev ts k), y.2 < ts.length := by
      intro y hy
      have := (sortBy_perm _ _).subset hy
      obtain ⟨t, ht, _, rfl⟩ := mem_bucketMembers.mp this
      exact hd.lt ht
    exact ⟨hm _ hx.1, hm _ (List.mem_of_mem_drop hx.2)⟩

theorem foldlM_chain {dev : Device} {ts : List TState} (hd : DenseTs ts) : ∀ (ks : List BucketKey)
    (E : List Edge),
    Out.foldlM (fun st k => chainBucket st (bucketMembers dev ts k)) (tsOf ts E, tkOf E) ks =
      .ok (tsOf ts (E ++ ks.flatMap fun k => pairEdges (sortMembers (bucketMembers dev ts k))),
           tkOf (E ++ ks.flatMap fun k => pairEdges (sortMembers (bucketMembers dev ts k)))) := by
  intro ks
  induction ks with
  | nil => intro E; simp
  | cons k ks ih =>
    intro E
    rw [Out.foldlM_cons, chainBucket_eq hd, Out.bind_ok, ih]
    simp

/-- The first pass succeeds as soon as every bucket key can be computed, and it produces the
NIU edges. -/
theorem niuPass_eq {dev : Device} {bord : List BucketKey → List BucketKey} {ts : List TState}
    (hf : Fresh ts) (hd : DenseTs ts) (hk : ∀ t ∈ ts, ∃ k, bucketKey dev t = .ok k) :
    niuPass dev bord ts = .ok (tsOf ts (niuEdges dev bord ts), tkOf (niuEdges dev bord ts)) := by
  unfold niuPass
  have h1 : Out.mapM (fun t => bucketKey dev t >>= fun k =>
      (.ok (k, t.start, t.params.id.toNat) : Out (BucketKey × Nat × Nat))) ts =
      .ok (ts.map fun t => (keyT dev t, t.start, t.params.id.toNat)) := by
    apply Out.mapM_of_ok
    intro t ht
    obtain ⟨k, hk⟩ := hk t ht
    rw [hk, Out.bind_ok]
    simp [keyT, hk, Out.getD]
  rw [h1, Out.bind_ok]
  have h2 : (ts.map fun t => (keyT dev t, t.start, t.params.id.toNat)).map (·.1) =
      ts.map (keyT dev) := by simp
  rw [h2]
  have h3 : ∀ k, ((ts.map fun t => (keyT dev t, t.start, t.params.id.toNat)).filter
      (fun e => e.1 = k)).map (·.2) = bucketMembers dev ts k := by
    intro k
    rw [List.filter_map, List.map_map]
    rfl
  simp only [h3]
  have := foldlM_chain (dev := dev) hd (bord (ts.map (keyT dev)).eraseDups) []
  rw [tsOf_nil hf] at this
  have e : tkOf [] = [] := rfl
  rw [e] at this
  rw [this]
  simp [niuEdges]

theorem niuPass_ok {dev : Device} {bord : List BucketKey → List BucketKey} {ts : List TState}
    {st : List TState × Tracker} (h : niuPass dev bord ts = .ok st) :
    ∀ t ∈ ts, ∃ k, bucketKey dev t = .ok k := by
  unfold niuPass at h
  obtain ⟨keyed, h1, _⟩ := Out.bind_eq_ok.mp h
  have h2 := (Out.mapM_map ((Noc.noc0, (0 : Int), (0 : Int), (0 : Int)), 0, 0) h1).2
  intro t ht
  obtain ⟨k, hk, _⟩ := Out.bind_eq_ok.mp (h2 t ht)
  exact ⟨k, hk⟩

/-- The transfer names a parent inside a group. -/
def HasParent (t : Transfer) : Prop := t.groupId ≠ -1 ∧ t.groupParent ≠ -1

instance (t : Transfer) : Decidable (HasParent t) := by unfold HasParent; infer_instance

/-- The transfer that the code takes for the parent. -/
def parentOf (gm : List ((Int × Int) × Nat)) (t : Transfer) : Nat :=
  (gm.lookup (t.groupId, t.groupParent)).getD 0

/-- Chip of the transfer at a position. -/
def devAt (ts : List TState) (p : Nat) : Int :=
  match ts[p]? with
  | some t => t.params.src.dev
  | none => 0

def groupEdge (fp : FP) (dev : Device) (ts : List TState) (t : Transfer) : Edge :=
  ⟨parentOf (groupMap ts) t, t.id.toNat,
    (groupDelay fp dev t (devAt ts (parentOf (groupMap ts) t))).getD 0⟩

/-- The edges of the second pass. -/
def groupEdges (fp : FP) (dev : Device) (ts : List TState) : List Edge :=
  ((ts.map (·.params)).filter (fun t => HasParent t)).map (groupEdge fp dev ts)

theorem groupOne_eq {fp : FP} {dev : Device} {ts : List TState} {E : List Edge} {t : Transfer}
    {st : List TState × Tracker} (hd : t.id.toNat < ts.length)
    (h : groupOne fp dev (groupMap ts) (tsOf ts E, tkOf E) t = .ok st) :
    (¬ HasParent t ∧ st = (tsOf ts E, tkOf E)) ∨
    (HasParent t ∧ st = (tsOf ts (E ++ [groupEdge fp dev ts t]), tkOf (E ++ [groupEdge fp dev ts t]))
      ∧ parentOf (groupMap ts) t < ts.length ∧
      groupDelay fp dev t (devAt ts (parentOf (groupMap ts) t)) = .ok (groupEdge fp dev ts t).d) := by
  unfold groupOne at h
  by_cases hp : HasParent t
  · right
    rw [if_pos (show t.groupId ≠ -1 ∧ t.groupParent ≠ -1 from hp)] at h
    simp only at h
    have e : (List.lookup (t.groupId, t.groupParent) (groupMap ts)).getD 0 =
      parentOf (groupMap ts) t := rfl
    rw [e] at h
    cases htp : (tsOf ts E)[parentOf (groupMap ts) t]? with
    | none => simp [htp] at h
    | some tp =>
      simp only [htp] at h
      obtain ⟨delay, hdel, h⟩ := Out.bind_eq_ok.mp h
      obtain ⟨t0, ht0, e0⟩ := tsOf_get.mp htp
      have hdv : devAt ts (parentOf (groupMap ts) t) = tp.params.src.dev := by
        unfold devAt; rw [ht0, e0]
      have hlt := (List.getElem?_eq_some_iff.mp ht0).1
      have hdd : (groupEdge fp dev ts t).d = delay := by
        unfold groupEdge
        simp only
        rw [hdv, hdel]; rfl
      rw [addDep_eq ts E _ _ _ hlt hd] at h
      have hge : groupEdge fp dev ts t = ⟨parentOf (groupMap ts) t, t.id.toNat, delay⟩ := by
        rw [← hdd]; rfl
      refine ⟨hp, ?_, hlt, ?_⟩
      · rw [hge]; exact (Out.ok.inj h).symm
      · rw [hdd, hdv]; exact hdel
  · left
    rw [if_neg (show ¬ (t.groupId ≠ -1 ∧ t.groupParent ≠ -1) from hp)] at h
    exact ⟨hp, (Out.ok.inj h).symm⟩

theorem foldlM_group {fp : FP} {dev : Device} {ts : List TState} : ∀ (l : List Transfer)
    (E : List Edge) (st : List TState × Tracker), (∀ t ∈ l, t.id.toNat < ts.length) →
    Out.foldlM (groupOne fp dev (groupMap ts)) (tsOf ts E, tkOf E) l = .ok st →
    st = (tsOf ts (E ++ (l.filter (fun t => HasParent t)).map (groupEdge fp dev ts)),
          tkOf (E ++ (l.filter (fun t => HasParent t)).map (groupEdge fp dev ts))) ∧
    ∀ t ∈ l, HasParent t → parentOf (groupMap ts) t < ts.length ∧
      groupDelay fp dev t (devAt ts (parentOf (groupMap ts) t)) = .ok (groupEdge fp dev ts t).d := by
  intro l
  induction l with
  | nil =>
    intro E st _ h
    simp only [Out.foldlM_nil, Out.ok.injEq] at h
    simp [← h]
  | cons t l ih =>
    intro E st hl h
    rw [Out.foldlM_cons] at h
    obtain ⟨st1, h1, h⟩ := Out.bind_eq_ok.mp h
    rcases groupOne_eq (hl t (by simp)) h1 with ⟨hp, e⟩ | ⟨hp, e, hlt, hdel⟩
    · rw [e] at h
      obtain ⟨h2, h3⟩ := ih E st (fun t ht => hl t (by simp [ht])) h
      refine ⟨by simpa [hp] using h2, ?_⟩
      intro t' ht' hp'
      rcases List.mem_cons.mp ht' with rfl | ht'
      · exact absurd hp' hp
      · exact h3 t' ht' hp'
    · rw [e] at h
      obtain ⟨h2, h3⟩ := ih _ st (fun t ht => hl t (by simp [ht])) h
      refine ⟨by simpa [hp] using h2, ?_⟩
      intro t' ht' hp'
      rcases List.mem_cons.mp ht' with rfl | ht'
      · exact ⟨hlt, hdel⟩
      · exact h3 t' ht' hp'

/-- Indices of an edge list are in range. -/
def EdgesOk (n : Nat) (E : List Edge) : Prop := ∀ e ∈ E, e.p < n ∧ e.c < n

theorem mem_pairEdges {l : List (Nat × Nat)} {e : Edge} (h : e ∈ pairEdges l) :
    ∃ (m : Nat) (a b : Nat × Nat), l[m]? = some a ∧ l[m + 2]? = some b ∧ e = ⟨a.2, b.2, 0⟩ := by
  unfold pairEdges at h
  obtain ⟨x, hx, rfl⟩ := List.mem_map.mp h
  obtain ⟨m, hm⟩ := List.mem_iff_getElem?.mp hx
  rw [List.getElem?_zip_eq_some, List.getElem?_drop] at hm
  exact ⟨m, x.1, x.2, hm.1, by rw [Nat.add_comm]; exact hm.2, rfl⟩

theorem pairEdges_mem {l : List (Nat × Nat)} {m : Nat} {a b : Nat × Nat} (h1 : l[m]? = some a)
    (h2 : l[m + 2]? = some b) : (⟨a.2, b.2, 0⟩ : Edge) ∈ pairEdges l := by
  unfold pairEdges
  refine List.mem_map.mpr ⟨(a, b), ?_, rfl⟩
  apply List.mem_iff_getElem?.mpr
  refine ⟨m, ?_⟩
  rw [List.getElem?_zip_eq_some, List.getElem?_drop]
  exact ⟨h1, by rw [Nat.add_comm]; exact h2⟩

theorem mem_sortMembers {l : List (Nat × Nat)} {x : Nat × Nat} : x ∈ sortMembers l ↔ x ∈ l :=
  (sortBy_perm _ l).mem_iff

theorem niuEdges_ok {dev : Device} {bord : List BucketKey → List BucketKey} {ts : List TState}
    (hd : DenseTs ts) : EdgesOk ts.length (niuEdges dev bord ts) := by
  intro e he
  unfold niuEdges at he
  obtain ⟨k, _, he⟩ := List.mem_flatMap.mp he
  obtain ⟨m, a, b, ha, hb, rfl⟩ := mem_pairEdges he
  have hm : ∀ y ∈ sortMembers (bucketMembers dev ts k), y.2 < ts.length := by
    intro y hy
    obtain ⟨t, ht, _, rfl⟩ := mem_bucketMembers.mp (mem_sortMembers.mp hy)
    exact hd.lt ht
  exact ⟨hm a (List.mem_of_getElem? ha), hm b (List.mem_of_getElem? hb)⟩

/-! ### The self check -/

theorem flatMap_prov_nodup (ts : List TState) (E : List Edge) :
    ((tsOf ts E).flatMap (·.requiredBy)).Nodup := by
  rw [List.nodup_flatMap]
  constructor
  · intro t ht
    obtain ⟨i, hi⟩ := List.mem_iff_getElem?.mp ht
    obtain ⟨t0, _, rfl⟩ := tsOf_get.mp hi
    show (provIdx E i).Nodup
    unfold provIdx
    have hz : (E.zipIdx.map (·.2)).Nodup := by
      rw [List.zipIdx_map_snd]; exact List.nodup_range'
    have h2 : ((E.zipIdx.filter fun x => x.1.p = i).map (·.2)).Nodup :=
      hz.sublist (List.filter_sublist.map _)
    have h3 := List.Nodup.map (f := fun (n : Nat) => (n : Int)) (fun a b h => by simpa using h) h2
    rw [List.map_map] at h3
    exact h3
  · rw [List.pairwise_iff_getElem]
    intro i j hi hj hij
    have h1 : (tsOf ts E)[i]? = some (tsOf ts E)[i] := List.getElem?_eq_getElem hi
    have h2 : (tsOf ts E)[j]? = some (tsOf ts E)[j] := List.getElem?_eq_getElem hj
    obtain ⟨t1, _, e1⟩ := tsOf_get.mp h1
    obtain ⟨t2, _, e2⟩ := tsOf_get.mp h2
    show List.Disjoint _ _
    rw [e1, e2]
    intro a ha hb
    obtain ⟨k, e, hk, hp, rfl⟩ := mem_provIdx.mp ha
    obtain ⟨k', e', hk', hp', hkk⟩ := mem_provIdx.mp hb
    have : k = k' := by omega
    subst this
    rw [hk] at hk'
    have := Option.some.inj hk'
    subst this
    omega

theorem mem_flatMap_prov {ts : List TState} {E : List Edge} (hE : EdgesOk ts.length E) {j : Int} :
    j ∈ (tsOf ts E).flatMap (·.requiredBy) ↔ 0 ≤ j ∧ j.toNat < E.length := by
  rw [List.mem_flatMap]
  constructor
  · rintro ⟨t, ht, hj⟩
    obtain ⟨i, hi⟩ := List.mem_iff_getElem?.mp ht
    obtain ⟨t0, _, rfl⟩ := tsOf_get.mp hi
    obtain ⟨k, e, hk, _, rfl⟩ := mem_provIdx.mp hj
    have := (List.getElem?_eq_some_iff.mp hk).1
    omega
  · rintro ⟨h1, h2⟩
    have hk : E[j.toNat]? = some E[j.toNat] := List.getElem?_eq_getElem h2
    have hp := (hE _ (List.mem_of_getElem? hk)).1
    refine ⟨_, List.mem_of_getElem? (tsOf_get.mpr ⟨ts[E[j.toNat].p], List.getElem?_eq_getElem hp,
      rfl⟩), ?_⟩
    exact mem_provIdx.mpr ⟨j.toNat, _, hk, rfl, by omega⟩

theorem foldlM_update_ok (e : Nat) : ∀ (l : List Int) (tk : Tracker),
    (∀ j ∈ l, 0 ≤ j ∧ j.toNat < tk.length) →
    ∃ tk', Out.foldlM (fun tk c => Tracker.update tk c e) tk l = .ok tk' := by
  intro l
  induction l with
  | nil => intro tk _; exact ⟨tk, rfl⟩
  | cons j l ih =>
    intro tk h
    obtain ⟨h1, h2⟩ := h j (by simp)
    have hg : tk.get j = .ok tk[j.toNat] :=
      Tracker.get_eq_ok.mpr ⟨h1, List.getElem?_eq_getElem h2⟩
    have hj : Tracker.defined j = true := by
      have : j ≠ -1 := by omega
      simp [Tracker.defined, Tracker.UNDEFINED, this]
    rw [Out.foldlM_cons, Tracker.update, if_pos hj, hg, Out.bind_ok, Out.bind_ok]
    apply ih
    intro j' hj'
    rw [List.length_set]
    exact h j' (by simp [hj'])

/-- The self check always succeeds and leaves the tracker as it was after the reset. -/
theorem selfCheck_eq {ts : List TState} {E : List Edge} (hE : EdgesOk ts.length E) :
    ∃ tk, selfCheck (tsOf ts E) (tkOf E) = .ok tk ∧ tk.reset = tkOf E := by
  have hlen : List.length (tkOf E) = E.length := by simp [tkOf]
  obtain ⟨tk, htk⟩ := foldlM_update_ok 0 ((tsOf ts E).flatMap (·.requiredBy)) (tkOf E)
    (fun j hj => by rw [hlen]; exact (mem_flatMap_prov hE).mp hj)
  obtain ⟨h1, _, h3⟩ := foldlM_update _ _ _ htk (flatMap_prov_nodup ts E)
    (fun j hj => by have := ((mem_flatMap_prov hE).mp hj).1; omega)
  have hget : ∀ k : Nat, tk[k]? = E[k]?.map fun e => ⟨1, 1, 0, e.d⟩ := by
    intro k
    rw [h3 k]
    rcases lt_or_ge k E.length with hk | hk
    · rw [if_pos ((mem_flatMap_prov hE).mpr ⟨by omega, by omega⟩)]
      unfold tkOf
      rw [List.getElem?_map, List.getElem?_eq_getElem hk]
      rfl
    · rw [if_neg (fun hc => by have := ((mem_flatMap_prov hE).mp hc).2; omega),
        List.getElem?_eq_none (by omega), List.getElem?_eq_none hk]; rfl
  have htkE : tk = E.map fun e => ⟨1, 1, 0, e.d⟩ := by
    apply List.ext_getElem?
    intro k
    rw [hget k, List.getElem?_map]
  refine ⟨tk, ?_, ?_⟩
  · unfold selfCheck
    rw [htk, Out.bind_ok, if_neg]
    rw [htkE]
    simp [Tracker.sanityCheck, Tracker.allComplete]
  · rw [htkE]
    simp [Tracker.reset, tkOf]

/-- All edges. -/
def allEdges (fp : FP) (dev : Device) (bord : List BucketKey → List BucketKey) (ts : List TState) :
    List Edge :=
  niuEdges dev bord ts ++ groupEdges fp dev ts

/-- Dependency generation produces the transfers and tracker of its edges. -/
theorem gen_ok {fp : FP} {dev : Device} {bord : List BucketKey → List BucketKey}
    {ts ts' : List TState} {tk : Tracker} (hf : Fresh ts) (hd : DenseTs ts)
    (h : genDependencies fp dev bord ts = .ok (ts', tk)) :
    ts' = tsOf ts (allEdges fp dev bord ts) ∧ tk = tkOf (allEdges fp dev bord ts) ∧
    EdgesOk ts.length (allEdges fp dev bord ts) ∧
    (∀ t ∈ ts, ∃ k, bucketKey dev t = .ok k) ∧
    ∀ t ∈ ts, HasParent t.params → 
      groupDelay fp dev t.params (devAt ts (parentOf (groupMap ts) t.params)) =
        .ok (groupEdge fp dev ts t.params).d := by
  unfold genDependencies at h
  obtain ⟨st1, h1, h⟩ := Out.bind_eq_ok.mp h
  have hk := niuPass_ok h1
  rw [niuPass_eq hf hd hk] at h1
  rw [← Out.ok.inj h1] at h
  obtain ⟨st2, h2, h⟩ := Out.bind_eq_ok.mp h
  have hids : ∀ t ∈ ts.map (·.params), t.id.toNat < ts.length := by
    intro t ht
    obtain ⟨t0, ht0, rfl⟩ := List.mem_map.mp ht
    exact hd.lt ht0
  obtain ⟨e2, hg⟩ := foldlM_group _ _ _ hids h2
  have hE : EdgesOk ts.length (allEdges fp dev bord ts) := by
    intro e he
    rcases List.mem_append.mp he with he | he
    · exact niuEdges_ok hd e he
    · obtain ⟨t, ht, rfl⟩ := List.mem_map.mp he
      obtain ⟨ht, hp⟩ := List.mem_filter.mp ht
      exact ⟨(hg t ht (by simpa using hp)).1, hids t ht⟩
  obtain ⟨tk1, h3, h4⟩ := selfCheck_eq hE
  rw [e2] at h
  have e3 : niuEdges dev bord ts ++ ((ts.map (·.params)).filter (fun t => HasParent t)).map
      (groupEdge fp dev ts) = allEdges fp dev bord ts := rfl
  rw [e3] at h
  simp only at h
  rw [h3, Out.bind_ok, h4] at h
  have := Out.ok.inj h
  simp only [Prod.mk.injEq] at this
  refine ⟨this.1.symm, this.2.symm, hE, hk, ?_⟩
  intro t ht hp
  exact (hg t.params (List.mem_map_of_mem ht) hp).2

end NPE
