import Verif.Proofs.Rates
import Verif.Spec.Deps

/-
From edge lists to the relation "waits for".
-/

namespace NPE
open NPE.Spec

/-- A run's transfers wait for what they wait for initially. -/
theorem Spec.Reach.waitsFor_iff {cfg : SimCfg} (hr : RatesOk cfg.rates) {s0 : Sim} (h0 : Inv 0 s0)
    {c : Nat} {s : Sim} (h : Reach cfg s0 c s) (i j d : Nat) :
    WaitsFor s i j d ↔ WaitsFor s0 i j d := by
  have key : ∀ {a b : Sim}, a.ts.map NPE.stat = b.ts.map NPE.stat →
      (∀ k : Nat, a.deps[k]?.map (·.delay) = b.deps[k]?.map (·.delay)) →
      WaitsFor a i j d → WaitsFor b i j d := by
    rintro a b hst hdl ⟨ti, tj, cp, hi, hj, hm, hn, hcp, hd⟩
    have get : ∀ (x : Nat) (t : TState), a.ts[x]? = some t →
        ∃ t', b.ts[x]? = some t' ∧ NPE.stat t' = NPE.stat t := by
      intro x t hx
      have h1 : (a.ts.map NPE.stat)[x]? = some (NPE.stat t) := by simp [hx]
      rw [hst, List.getElem?_map, Option.map_eq_some_iff] at h1
      obtain ⟨t', h2, h3⟩ := h1
      exact ⟨t', h2, h3⟩
    obtain ⟨ti', hi', ei⟩ := get i ti hi
    obtain ⟨tj', hj', ej⟩ := get j tj hj
    have e1 : ti'.dependsOn = ti.dependsOn := by
      have := congrArg (fun x => x.2.2.1) ei; exact this
    have e2 : tj'.requiredBy = tj.requiredBy := by
      have := congrArg (fun x => x.2.2.2) ej; exact this
    have h1 := hdl ti.dependsOn.toNat
    rw [hcp, Option.map_some] at h1
    obtain ⟨cp', h2, h3⟩ := Option.map_eq_some_iff.mp h1.symm
    exact ⟨ti', tj', cp', hi', hj', by rw [e1, e2]; exact hm, by rw [e1]; exact hn,
      by rw [e1]; exact h2, by rw [h3]; exact hd⟩
  exact ⟨key (h.stat hr h0) (h.delay hr h0), key (h.stat hr h0).symm (fun k => (h.delay hr h0 k).symm)⟩

/-- "Waits for" in terms of an edge list. -/
theorem waits_tsOf {ts : List TState} {E : List Edge} {s : Sim} (h1 : s.ts = tsOf ts E)
    (h2 : s.deps = tkOf E) (hE : EdgesOk ts.length E) (i j d : Nat) :
    WaitsFor s i j d ↔ ∃ (k : Nat) (e : Edge), E[k]? = some e ∧ lastIdx E i = k ∧ e.p = j ∧
      e.c = i ∧ e.d = d ∧ ∀ (k' : Nat) (e' : Edge), k < k' → E[k']? = some e' → e'.c ≠ i := by
  constructor
  · rintro ⟨ti, tj, cp, hi, hj, hm, hn, hcp, hd⟩
    rw [h1] at hi hj
    obtain ⟨_, _, rfl⟩ := tsOf_get.mp hi
    obtain ⟨_, _, rfl⟩ := tsOf_get.mp hj
    simp only at hm hn hcp
    rcases lastIdx_spec E i with ⟨h3, _⟩ | ⟨k, e, hk, hc, h3, h4⟩
    · rw [h3] at hn; omega
    · obtain ⟨k', e', hk', hp', h5⟩ := mem_provIdx.mp hm
      have : k' = k := by omega
      subst this
      rw [hk] at hk'
      have he := Option.some.inj hk'
      subst he
      refine ⟨k', e, hk, h3, hp', hc, ?_, h4⟩
      rw [h2, h3, Int.toNat_natCast] at hcp
      unfold tkOf at hcp
      rw [List.getElem?_map, hk] at hcp
      have := Option.some.inj hcp
      rw [← hd, ← this]
  · rintro ⟨k, e, hk, h3, hp, hc, hd, _⟩
    obtain ⟨r1, r2⟩ := hE e (List.mem_of_getElem? hk)
    refine ⟨_, _, ⟨0, 1, 0, e.d⟩, by rw [h1]; exact tsOf_get.mpr ⟨_, List.getElem?_eq_getElem (hc ▸ r2), rfl⟩,
      by rw [h1]; exact tsOf_get.mpr ⟨_, List.getElem?_eq_getElem (hp ▸ r1), rfl⟩, ?_, ?_, ?_, hd⟩
    · simp only
      rw [h3]
      exact mem_provIdx.mpr ⟨k, e, hk, hp, rfl⟩
    · simp only; omega
    · simp only
      rw [h3, h2, Int.toNat_natCast]
      unfold tkOf
      rw [List.getElem?_map, hk]; rfl

/-- Only the first part of an edge list has edges into `i`, and all of them are equal. -/
theorem waits_left {ts : List TState} {A B : List Edge} {s : Sim} (h1 : s.ts = tsOf ts (A ++ B))
    (h2 : s.deps = tkOf (A ++ B)) (hE : EdgesOk ts.length (A ++ B)) {i : Nat}
    (hB : ∀ e ∈ B, e.c ≠ i) (hA : ∀ e ∈ A, ∀ e' ∈ A, e.c = i → e'.c = i → e = e') (j d : Nat) :
    WaitsFor s i j d ↔ (⟨j, i, d⟩ : Edge) ∈ A := by
  rw [waits_tsOf h1 h2 hE]
  constructor
  · rintro ⟨k, e, hk, _, hp, hc, hd, _⟩
    have hm := List.mem_of_getElem? hk
    have : e = ⟨j, i, d⟩ := by cases e; simp only at hp hc hd; subst hp hc hd; rfl
    rcases List.mem_append.mp hm with hm | hm
    · rw [← this]; exact hm
    · exact absurd hc (hB e hm)
  · intro hm
    rcases lastIdx_spec (A ++ B) i with ⟨_, h3⟩ | ⟨k, e, hk, hc, h3, h4⟩
    · exact absurd rfl (h3 _ (List.mem_append_left _ hm))
    · have : e = ⟨j, i, d⟩ := by
        rcases List.mem_append.mp (List.mem_of_getElem? hk) with hx | hx
        · exact hA _ hx _ hm hc rfl
        · exact absurd hc (hB e hx)
      exact ⟨k, e, hk, h3, by rw [this], hc, by rw [this], h4⟩

/-- The second part of an edge list has exactly one edge value into `i`. -/
theorem waits_right {ts : List TState} {A B : List Edge} {s : Sim} (h1 : s.ts = tsOf ts (A ++ B))
    (h2 : s.deps = tkOf (A ++ B)) (hE : EdgesOk ts.length (A ++ B)) {i : Nat} {e0 : Edge}
    (h0 : e0 ∈ B) (hc0 : e0.c = i) (hB : ∀ e ∈ B, e.c = i → e = e0) (j d : Nat) :
    WaitsFor s i j d ↔ e0.p = j ∧ e0.d = d := by
  have h5 : ∃ (k : Nat), (A ++ B)[k]? = some e0 ∧ lastIdx (A ++ B) i = k ∧
      ∀ (k' : Nat) (e' : Edge), k < k' → (A ++ B)[k']? = some e' → e'.c ≠ i := by
    rcases lastIdx_spec (A ++ B) i with ⟨_, h3⟩ | ⟨k, e, hk, hc, h3, h4⟩
    · exact absurd hc0 (h3 _ (List.mem_append_right _ h0))
    · obtain ⟨m, hm⟩ := List.mem_iff_getElem?.mp h0
      rcases lt_or_ge k A.length with hl | hl
      · exfalso
        refine h4 (A.length + m) e0 (by omega) ?_ hc0
        rw [List.getElem?_append_right (by omega)]
        simpa using hm
      · rw [List.getElem?_append_right hl] at hk
        have := hB e (List.mem_of_getElem? hk) hc
        subst this
        exact ⟨k, by rw [List.getElem?_append_right hl]; exact hk, h3, h4⟩
  obtain ⟨k, hk, h3, h4⟩ := h5
  rw [waits_tsOf h1 h2 hE]
  constructor
  · rintro ⟨k', e, hk', h3', hp, hc, hd, _⟩
    have : k' = k := by omega
    subst this
    rw [hk] at hk'
    have := Option.some.inj hk'
    subst this
    exact ⟨hp, hd⟩
  · rintro ⟨hp, hd⟩
    exact ⟨k, e0, hk, h3, hp, hc0, hd, h4⟩

/-! ### Positions in a sorted list -/

theorem sorted_lt_iff {α : Type} {R : α → α → Prop} (hirr : ∀ a, ¬ R a a)
    (htr : ∀ a b c, R a b → R b c → R a c) {l : List α} (hl : l.Pairwise R) {m n : Nat} {a b : α}
    (ha : l[m]? = some a) (hb : l[n]? = some b) : R a b ↔ m < n := by
  obtain ⟨hm, rfl⟩ := List.getElem?_eq_some_iff.mp ha
  obtain ⟨hn, rfl⟩ := List.getElem?_eq_some_iff.mp hb
  rw [List.pairwise_iff_getElem] at hl
  constructor
  · intro h
    by_contra hc
    rcases Nat.lt_or_eq_of_le (Nat.le_of_not_lt hc) with h1 | h1
    · exact hirr _ (htr _ _ _ h (hl n m hn hm h1))
    · subst h1; exact hirr _ h
  · exact hl m n hm hn

/-- Two places apart means exactly one element in between. -/
theorem sorted_two_iff {α : Type} {R : α → α → Prop} (hirr : ∀ a, ¬ R a a)
    (htr : ∀ a b c, R a b → R b c → R a c) {l : List α} (hl : l.Pairwise R) {m n : Nat} {a b : α}
    (ha : l[m]? = some a) (hb : l[n]? = some b) :
    n = m + 2 ↔ R a b ∧ ∃! c, c ∈ l ∧ R a c ∧ R c b := by
  have hlt : ∀ {x y : Nat} {u v : α}, l[x]? = some u → l[y]? = some v → (R u v ↔ x < y) :=
    fun h1 h2 => sorted_lt_iff hirr htr hl h1 h2
  have hm := (List.getElem?_eq_some_iff.mp ha).1
  have hn := (List.getElem?_eq_some_iff.mp hb).1
  constructor
  · intro h
    subst h
    have hc : l[m + 1]? = some l[m + 1] := List.getElem?_eq_getElem (by omega)
    refine ⟨(hlt ha hb).mpr (by omega), l[m + 1], ⟨List.mem_of_getElem? hc,
      (hlt ha hc).mpr (by omega), (hlt hc hb).mpr (by omega)⟩, ?_⟩
    rintro y ⟨hy, h1, h2⟩
    obtain ⟨x, hx⟩ := List.mem_iff_getElem?.mp hy
    have h1 := (hlt ha hx).mp h1
    have h2 := (hlt hx hb).mp h2
    have : x = m + 1 := by omega
    subst this
    rw [hc] at hx
    exact (Option.some.inj hx).symm
  · rintro ⟨h, c, ⟨hc, h1, h2⟩, hu⟩
    obtain ⟨x, hx⟩ := List.mem_iff_getElem?.mp hc
    have h1' := (hlt ha hx).mp h1
    have h2' := (hlt hx hb).mp h2
    by_contra hne
    have hmem : ∀ y, m < y → y < n → y = x := by
      intro y hy1 hy2
      have hy : l[y]? = some l[y] := List.getElem?_eq_getElem (by omega)
      have := hu l[y] ⟨List.mem_of_getElem? hy, (hlt ha hy).mpr hy1, (hlt hy hb).mpr hy2⟩
      rw [this] at hy
      by_contra hxy
      rcases Nat.lt_or_gt_of_ne hxy with h3 | h3
      · exact hirr c ((hlt hy hx).mpr h3)
      · exact hirr c ((hlt hx hy).mpr h3)
    have e1 := hmem (m + 1) (by omega) (by omega)
    have e2 := hmem (n - 1) (by omega) (by omega)
    omega

/-! ### Lanes are buckets -/

theorem toInt_inj {a b : LinkType} (h : a.toInt = b.toInt) : a = b := by
  cases a <;> cases b <;> simp_all [LinkType.toInt]

theorem toInt_lt (a : LinkType) : a.toInt < 1000 := by cases a <;> decide

theorem sameLane_iff {dev : Device} {t u : TState} (ht : ∃ k, bucketKey dev t = .ok k)
    (hu : ∃ k, bucketKey dev u = .ok k) : SameLane dev t u ↔ keyT dev t = keyT dev u := by
  obtain ⟨kt, ht⟩ := ht
  obtain ⟨ku, hu⟩ := hu
  unfold SameLane keyT
  rw [ht, hu]
  simp only [Out.getD]
  unfold bucketKey at ht hu
  unfold FirstLink
  cases hrt : t.route with
  | nil =>
    simp only [hrt, Out.ok.injEq] at ht
    cases hru : u.route with
    | nil =>
      simp only [hru, Out.ok.injEq] at hu
      rw [← ht, ← hu]
      simp only [Prod.mk.injEq]
      constructor
      · rintro ⟨h1, h2, h3, _⟩; exact ⟨h1, h2, h3, by rw [h1]⟩
      · rintro ⟨h1, h2, h3, _⟩; exact ⟨h1, h2, h3, none, rfl, rfl⟩
    | cons l ls =>
      simp only [hru] at hu
      obtain ⟨a, ha, hu⟩ := Out.bind_eq_ok.mp hu
      rw [← ht, ← Out.ok.inj hu]
      simp only [Prod.mk.injEq]
      constructor
      · rintro ⟨_, _, _, k, rfl, _, _, h⟩; simp at h
      · rintro ⟨_, _, _, h⟩
        have := toInt_lt a.type
        exfalso
        cases hn : t.params.noc <;> simp only [hn] at h <;> omega
  | cons l ls =>
    simp only [hrt] at ht
    obtain ⟨a, ha, ht⟩ := Out.bind_eq_ok.mp ht
    cases hru : u.route with
    | nil =>
      simp only [hru, Out.ok.injEq] at hu
      rw [← hu, ← Out.ok.inj ht]
      simp only [Prod.mk.injEq]
      constructor
      · rintro ⟨_, _, _, k, ⟨_, _, h⟩, rfl⟩; simp at h
      · rintro ⟨_, _, _, h⟩
        have := toInt_lt a.type
        exfalso
        cases hn : u.params.noc <;> simp only [hn] at h <;> omega
    | cons l' ls' =>
      simp only [hru] at hu
      obtain ⟨b, hb, hu⟩ := Out.bind_eq_ok.mp hu
      rw [← Out.ok.inj hu, ← Out.ok.inj ht]
      simp only [Prod.mk.injEq]
      constructor
      · rintro ⟨h1, h2, h3, k, ⟨a', ha', rfl⟩, b', hb', hk⟩
        rw [ha] at ha'
        rw [hb] at hb'
        have e1 := Out.ok.inj ha'
        have e2 := Out.ok.inj hb'
        subst e1 e2
        exact ⟨h1, h2, h3, by rw [Option.some.inj hk]⟩
      · rintro ⟨h1, h2, h3, h4⟩
        exact ⟨h1, h2, h3, some a.type, ⟨a, ha, rfl⟩, b, hb, by rw [toInt_inj h4]⟩

/-! ### The edges of the first pass -/

theorem bucketMembers_sorted {dev : Device} {ts : List TState} (hd : DenseTs ts) (k : BucketKey) :
    (sortMembers (bucketMembers dev ts k)).Pairwise LexLt := by
  apply sortBy_stable
  have h1 : ts.Pairwise (fun a b => a.params.id.toNat < b.params.id.toNat) := by
    rw [List.pairwise_iff_getElem]
    intro i j hi hj hij
    rw [hd i _ (List.getElem?_eq_getElem hi), hd j _ (List.getElem?_eq_getElem hj)]
    omega
  unfold bucketMembers
  rw [List.pairwise_map]
  exact (h1.sublist List.filter_sublist)

theorem mem_bucket_idx {dev : Device} {ts : List TState} (hd : DenseTs ts) {k : BucketKey}
    {x : Nat × Nat} : x ∈ sortMembers (bucketMembers dev ts k) ↔
      ∃ t, ts[x.2]? = some t ∧ keyT dev t = k ∧ x.1 = t.start := by
  rw [mem_sortMembers, mem_bucketMembers]
  constructor
  · rintro ⟨t, ht, hk, rfl⟩
    obtain ⟨i, hi⟩ := List.mem_iff_getElem?.mp ht
    have := hd i t hi
    exact ⟨t, by simp [this, hi], hk, rfl⟩
  · rintro ⟨t, ht, hk, h1⟩
    refine ⟨t, List.mem_of_getElem? ht, hk, ?_⟩
    have := hd _ t ht
    ext
    · exact h1
    · simp only; omega

theorem mem_eraseDups {α : Type} [BEq α] [LawfulBEq α] {a : α} {l : List α} :
    a ∈ l.eraseDups ↔ a ∈ l := List.mem_eraseDups

/-- The edges of the first pass: pairs two places apart in a bucket. -/
theorem mem_niuEdges {dev : Device} {bord : List BucketKey → List BucketKey} {ts : List TState}
    (hb : ∀ l, (bord l).Perm l) (hd : DenseTs ts) {e : Edge} :
    e ∈ niuEdges dev bord ts ↔ e.d = 0 ∧ ∃ tp tc, ts[e.p]? = some tp ∧ ts[e.c]? = some tc ∧
      keyT dev tp = keyT dev tc ∧
      ∃ m : Nat, (sortMembers (bucketMembers dev ts (keyT dev tc)))[m]? = some (tp.start, e.p) ∧
        (sortMembers (bucketMembers dev ts (keyT dev tc)))[m + 2]? = some (tc.start, e.c) := by
  unfold niuEdges
  rw [List.mem_flatMap]
  constructor
  · rintro ⟨k, hk, he⟩
    obtain ⟨m, a, b, ha, hb, rfl⟩ := mem_pairEdges he
    obtain ⟨tp, h1, h2, h3⟩ := (mem_bucket_idx hd).mp (List.mem_of_getElem? ha)
    obtain ⟨tc, h4, h5, h6⟩ := (mem_bucket_idx hd).mp (List.mem_of_getElem? hb)
    refine ⟨rfl, tp, tc, h1, h4, by rw [h2, h5], m, ?_, ?_⟩
    · simp only
      rw [h5, ha, ← h3]
    · simp only
      rw [h5, hb, ← h6]
  · rintro ⟨h0, tp, tc, h1, h2, h3, m, h4, h5⟩
    refine ⟨keyT dev tc, ?_, ?_⟩
    · refine (hb _).symm.subset ?_
      rw [mem_eraseDups]
      exact List.mem_map_of_mem (List.mem_of_getElem? h2)
    · have := pairEdges_mem h4 h5
      simp only at this
      cases e
      simp only at h0
      subst h0
      exact this

/-- A transfer has at most one edge in the first pass. -/
theorem niuEdges_unique {dev : Device} {bord : List BucketKey → List BucketKey} {ts : List TState}
    (hb : ∀ l, (bord l).Perm l) (hd : DenseTs ts) {e e' : Edge} (h : e ∈ niuEdges dev bord ts)
    (h' : e' ∈ niuEdges dev bord ts) (hc : e.c = e'.c) : e = e' := by
  obtain ⟨d1, tp, tc, p1, c1, _, m, a1, b1⟩ := (mem_niuEdges hb hd).mp h
  obtain ⟨d2, tp', tc', p2, c2, _, m', a2, b2⟩ := (mem_niuEdges hb hd).mp h'
  rw [← hc, c1] at c2
  have := Option.some.inj c2
  subst this
  have hs := bucketMembers_sorted hd (dev := dev) (keyT dev tc)
  rw [← hc] at b2
  have hmm : m = m' := by
    by_contra hne
    rcases Nat.lt_or_gt_of_ne hne with h3 | h3
    · exact LexLt.irrefl _ ((sorted_lt_iff LexLt.irrefl (fun _ _ _ => LexLt.trans) hs b1 b2).mpr (by omega))
    · exact LexLt.irrefl _ ((sorted_lt_iff LexLt.irrefl (fun _ _ _ => LexLt.trans) hs b2 b1).mpr (by omega))
  subst hmm
  rw [a1] at a2
  have := (Prod.mk.inj (Option.some.inj a2)).2
  cases e; cases e'
  simp only at *
  simp [*]

/-- The initial state in terms of edges. -/
structure Init0 (fp : FP) (dev : Device) (ho : HashOrder) (wl : Workload) (s0 : Sim)
    (ts : List TState) : Prop where
  state : initTransferState dev ho.links wl = .ok ts
  fresh : Fresh ts
  dense : DenseTs ts
  states : s0.ts = tsOf ts (niuEdges dev ho.buckets ts ++ groupEdges fp dev ts)
  deps : s0.deps = tkOf (niuEdges dev ho.buckets ts ++ groupEdges fp dev ts)
  edges : EdgesOk ts.length (niuEdges dev ho.buckets ts ++ groupEdges fp dev ts)
  keys : ∀ t ∈ ts, ∃ k, bucketKey dev t = .ok k
  delays : ∀ t ∈ ts, HasParent t.params →
      groupDelay fp dev t.params (devAt ts (parentOf (groupMap ts) t.params)) =
        .ok (groupEdge fp dev ts t.params).d

theorem init0 {fp : FP} {dev : Device} {ho : HashOrder} {wl : Workload} {s0 : Sim}
    (h : initSim fp dev ho wl = .ok s0) : ∃ ts, Init0 fp dev ho wl s0 ts := by
  obtain ⟨_, ts, h1, h2⟩ := initSim_ok h
  obtain ⟨hf, hd⟩ := init_fresh h1
  obtain ⟨e1, e2, e3, e4, e5⟩ := gen_ok hf hd h2
  exact ⟨ts, h1, hf, hd, e1, e2, e3, e4, e5⟩

theorem Init0.get {fp : FP} {dev : Device} {ho : HashOrder} {wl : Workload} {s0 : Sim}
    {ts : List TState} (I : Init0 fp dev ho wl s0 ts) {i : Nat} {t : TState} :
    s0.ts[i]? = some t → ∃ t0, ts[i]? = some t0 ∧ t0.params = t.params ∧ t0.route = t.route ∧
      t0.start = t.params.offset := by
  intro h
  rw [I.states] at h
  obtain ⟨t0, h1, rfl⟩ := tsOf_get.mp h
  obtain ⟨_, _, r, _, e⟩ := (initTransferState_ok I.state).2 i t0 h1
  exact ⟨t0, h1, rfl, rfl, by rw [e]⟩

theorem Init0.get' {fp : FP} {dev : Device} {ho : HashOrder} {wl : Workload} {s0 : Sim}
    {ts : List TState} (I : Init0 fp dev ho wl s0 ts) {i : Nat} {t0 : TState}
    (h : ts[i]? = some t0) : ∃ t, s0.ts[i]? = some t ∧ t0.params = t.params ∧ t0.route = t.route ∧
      t0.start = t.params.offset := by
  obtain ⟨_, _, r, _, e⟩ := (initTransferState_ok I.state).2 i t0 h
  have h2 := (tsOf_get (E := niuEdges dev ho.buckets ts ++ groupEdges fp dev ts)).mpr ⟨t0, h, rfl⟩
  rw [← I.states] at h2
  exact ⟨_, h2, rfl, rfl, by simp only; rw [e]⟩

theorem SameLane.congr {dev : Device} {t u t' u' : TState} (h1 : t.params = t'.params)
    (h2 : t.route = t'.route) (h3 : u.params = u'.params) (h4 : u.route = u'.route) :
    SameLane dev t u ↔ SameLane dev t' u' := by
  unfold SameLane FirstLink
  rw [h1, h2, h3, h4]

/-- Without a parent, transfers wait for the lane mate two places before. -/
theorem Init0.waits_niu {fp : FP} {dev : Device} {ho : HashOrder} {wl : Workload} {s0 : Sim}
    {ts : List TState} (I : Init0 fp dev ho wl s0 ts) (hb : ∀ l, (ho.buckets l).Perm l)
    {i : Nat} {ti : TState} (hi : s0.ts[i]? = some ti) (hp : ¬ HasParent ti.params) (j d : Nat) :
    WaitsFor s0 i j d ↔ d = 0 ∧ TwoBefore (SameLane dev) s0 j i := by
  obtain ⟨ti0, hi0, ei1, ei2, ei3⟩ := I.get hi
  rw [waits_left I.states I.deps I.edges (i := i) ?_ ?_ j d, mem_niuEdges hb I.dense]
  · simp only
    rw [and_congr_right_iff]
    intro _
    -- members of the bucket of `i`
    have hs := bucketMembers_sorted I.dense (dev := dev) (keyT dev ti0)
    have hmem : ∀ x, x ∈ sortMembers (bucketMembers dev ts (keyT dev ti0)) ↔
        LaneMates (SameLane dev) s0 x.2 i ∧ ∃ t, s0.ts[x.2]? = some t ∧ x.1 = t.params.offset := by
      intro x
      rw [mem_bucket_idx I.dense]
      constructor
      · rintro ⟨t0, h1, h2, h3⟩
        obtain ⟨t, h4, h5, h6, h7⟩ := I.get' h1
        refine ⟨⟨t, ti, h4, hi, ?_⟩, t, h4, by rw [h3, h7]⟩
        rw [← SameLane.congr h5 h6 ei1 ei2, sameLane_iff (I.keys _ (List.mem_of_getElem? h1))
          (I.keys _ (List.mem_of_getElem? hi0))]
        exact h2
      · rintro ⟨⟨t, ti', h1, h2, h3⟩, t', h4, h5⟩
        rw [h1] at h4
        have := Option.some.inj h4
        subst this
        rw [hi] at h2
        have := Option.some.inj h2
        subst this
        obtain ⟨t0, h6, h7, h8, h9⟩ := I.get h1
        refine ⟨t0, h6, ?_, by rw [h5, h9]⟩
        rw [← SameLane.congr h7 h8 ei1 ei2, sameLane_iff (I.keys _ (List.mem_of_getElem? h6))
          (I.keys _ (List.mem_of_getElem? hi0))] at h3
        exact h3
    have hlex : ∀ {a b : Nat} {ta tb : TState}, s0.ts[a]? = some ta → s0.ts[b]? = some tb →
        (LexLt (ta.params.offset, a) (tb.params.offset, b) ↔ Earlier s0 a b) := by
      intro a b ta tb ha hb
      constructor
      · intro h; exact ⟨ta, tb, ha, hb, h⟩
      · rintro ⟨ta', tb', ha', hb', h⟩
        rw [ha] at ha'; rw [hb] at hb'
        have e1 := Option.some.inj ha'
        have e2 := Option.some.inj hb'
        subst e1 e2
        exact h
    have huniq : ∀ {x y : Nat × Nat}, x ∈ sortMembers (bucketMembers dev ts (keyT dev ti0)) →
        y ∈ sortMembers (bucketMembers dev ts (keyT dev ti0)) → x.2 = y.2 → x = y := by
      intro x y hx hy hxy
      obtain ⟨_, t, h1, h2⟩ := (hmem x).mp hx
      obtain ⟨_, t', h3, h4⟩ := (hmem y).mp hy
      rw [← hxy, h1] at h3
      have := Option.some.inj h3
      subst this
      ext
      · rw [h2, h4]
      · exact hxy
    have hi_mem : (ti.params.offset, i) ∈ sortMembers (bucketMembers dev ts (keyT dev ti0)) :=
      (mem_bucket_idx I.dense).mpr ⟨ti0, hi0, rfl, ei3.symm⟩
    obtain ⟨n, hn⟩ := List.mem_iff_getElem?.mp hi_mem
    -- the uniqueness statement, over pairs and over ids
    have hex : ∀ {tj : TState}, s0.ts[j]? = some tj →
        ((∃! c, c ∈ sortMembers (bucketMembers dev ts (keyT dev ti0)) ∧
          LexLt (tj.params.offset, j) c ∧ LexLt c (ti.params.offset, i)) ↔
        ∃! k, LaneMates (SameLane dev) s0 k i ∧ Earlier s0 j k ∧ Earlier s0 k i) := by
      intro tj hj
      constructor
      · rintro ⟨c, ⟨h1, h2, h3⟩, h4⟩
        obtain ⟨h5, t, h6, h7⟩ := (hmem c).mp h1
        have hc : c = (t.params.offset, c.2) := by ext; exact h7; rfl
        rw [hc] at h2 h3
        refine ⟨c.2, ⟨h5, (hlex hj h6).mp h2, (hlex h6 hi).mp h3⟩, ?_⟩
        rintro k ⟨h8, h9, h10⟩
        obtain ⟨tk, _, hk, _⟩ := id h8
        have := h4 (tk.params.offset, k) ⟨(hmem _).mpr ⟨h8, tk, hk, rfl⟩, (hlex hj hk).mpr h9,
          (hlex hk hi).mpr h10⟩
        rw [← this]
      · rintro ⟨k, ⟨h8, h9, h10⟩, h4⟩
        obtain ⟨tk, _, hk, _⟩ := id h8
        refine ⟨(tk.params.offset, k), ⟨(hmem _).mpr ⟨h8, tk, hk, rfl⟩, (hlex hj hk).mpr h9,
          (hlex hk hi).mpr h10⟩, ?_⟩
        rintro c ⟨h1, h2, h3⟩
        obtain ⟨h5, t, h6, h7⟩ := (hmem c).mp h1
        have hc : c = (t.params.offset, c.2) := by ext; exact h7; rfl
        rw [hc] at h2 h3
        have := h4 c.2 ⟨h5, (hlex hj h6).mp h2, (hlex h6 hi).mp h3⟩
        exact huniq h1 ((hmem _).mpr ⟨h8, tk, hk, rfl⟩) this
    constructor
    · rintro ⟨tp, tc, h1, h2, h3, m, h4, h5⟩
      rw [hi0] at h2
      have := Option.some.inj h2
      subst this
      obtain ⟨tj, hj, ej1, ej2, ej3⟩ := I.get' h1
      rw [ej3] at h4
      rw [ei3] at h5
      have hjm := (hmem _).mp (List.mem_of_getElem? h4)
      have := (sorted_two_iff LexLt.irrefl (fun _ _ _ => LexLt.trans) hs h4 h5).mp rfl
      exact ⟨hjm.1, (hlex hj hi).mp this.1, (hex hj).mp this.2⟩
    · rintro ⟨h1, h2, h3⟩
      obtain ⟨tj, ti', hj, hi', hsl⟩ := id h1
      obtain ⟨tj0, hj0, ej1, ej2, ej3⟩ := I.get hj
      have hjm := (hmem (tj.params.offset, j)).mpr ⟨h1, tj, hj, rfl⟩
      obtain ⟨m, hm⟩ := List.mem_iff_getElem?.mp hjm
      have h4 := (sorted_two_iff LexLt.irrefl (fun _ _ _ => LexLt.trans) hs hm hn).mpr
        ⟨(hlex hj hi).mpr h2, (hex hj).mpr h3⟩
      subst h4
      obtain ⟨t0, h5, h6, _⟩ := (mem_bucket_idx I.dense).mp hjm
      simp only at h5
      rw [hj0] at h5
      have := Option.some.inj h5
      subst this
      exact ⟨tj0, ti0, hj0, hi0, h6, m, by rw [ej3]; exact hm, by rw [ei3]; exact hn⟩
  · intro e he hc
    unfold groupEdges at he
    obtain ⟨t, ht, rfl⟩ := List.mem_map.mp he
    obtain ⟨ht, hpt⟩ := List.mem_filter.mp ht
    obtain ⟨t0, ht0, rfl⟩ := List.mem_map.mp ht
    obtain ⟨x, hx⟩ := List.mem_iff_getElem?.mp ht0
    have hid := I.dense x t0 hx
    have : x = i := by
      have h : (groupEdge fp dev ts t0.params).c = t0.params.id.toNat := rfl
      rw [hc] at h; omega
    subst this
    rw [hi0] at hx
    have := Option.some.inj hx
    subst this
    rw [ei1] at hpt
    exact hp (by simpa using hpt)
  · intro e he e' he' hc hc'
    exact niuEdges_unique hb I.dense he he' (by rw [hc, hc'])

/-! ### The edges of the second pass -/

/-- Lookup in the map of group members. -/
theorem groupMap_some {ts : List TState} (hd : DenseTs ts) {g x : Int} {p : Nat}
    (h : (groupMap ts).lookup (g, x) = some p) :
    ∃ tp, ts[p]? = some tp ∧ tp.params.groupId = g ∧ tp.params.groupIdx = x ∧ x ≠ -1 := by
  have hm : ((g, x), p) ∈ groupMap ts := by
    rw [List.lookup_eq_some_iff] at h
    obtain ⟨l1, l2, h1, _⟩ := h
    rw [h1]; simp
  unfold groupMap at hm
  rw [List.mem_reverse] at hm
  obtain ⟨t, ht, he⟩ := List.mem_map.mp hm
  obtain ⟨ht, hg⟩ := List.mem_filter.mp ht
  obtain ⟨i, hi⟩ := List.mem_iff_getElem?.mp ht
  have := hd i t hi
  simp only [Prod.mk.injEq] at he
  have hpi : p = i := by omega
  subst hpi
  simp only [ne_eq, decide_eq_true_eq] at hg
  exact ⟨t, hi, he.1.1, he.1.2, by rw [← he.1.2]; exact hg.2⟩

theorem groupMap_none {ts : List TState} {g x : Int} (hg : g ≠ -1) (hx : x ≠ -1)
    (h : (groupMap ts).lookup (g, x) = none) :
    ∀ tp ∈ ts, ¬ (tp.params.groupId = g ∧ tp.params.groupIdx = x) := by
  rintro t ht ⟨h1, h2⟩
  rw [List.lookup_eq_none_iff] at h
  have : ((g, x), t.params.id.toNat) ∈ groupMap ts := by
    unfold groupMap
    rw [List.mem_reverse]
    refine List.mem_map.mpr ⟨t, List.mem_filter.mpr ⟨ht, ?_⟩, by rw [h1, h2]⟩
    simp only [ne_eq, decide_eq_true_eq]
    exact ⟨by rw [h1]; exact hg, by rw [h2]; exact hx⟩
  have := h _ this
  simp at this

/-- With a parent, a transfer waits for what the group pass found. -/
theorem Init0.waits_group {fp : FP} {dev : Device} {ho : HashOrder} {wl : Workload} {s0 : Sim}
    {ts : List TState} (I : Init0 fp dev ho wl s0 ts)
    {i : Nat} {ti : TState} (hi : s0.ts[i]? = some ti) (hp : HasParent ti.params) (j d : Nat) :
    WaitsFor s0 i j d ↔ parentOf (groupMap ts) ti.params = j ∧
      groupDelay fp dev ti.params (devAt ts j) = .ok d := by
  obtain ⟨ti0, hi0, ei1, ei2, ei3⟩ := I.get hi
  have hm0 := List.mem_of_getElem? hi0
  have hid := I.dense i ti0 hi0
  rw [waits_right I.states I.deps I.edges (i := i) (e0 := groupEdge fp dev ts ti.params)]
  · have hdel := I.delays ti0 hm0 (by rw [ei1]; exact hp)
    rw [ei1] at hdel
    show parentOf (groupMap ts) ti.params = j ∧ _ ↔ _
    constructor
    · rintro ⟨h1, h2⟩
      refine ⟨h1, ?_⟩
      rw [← h1, ← h2]; exact hdel
    · rintro ⟨h1, h2⟩
      refine ⟨h1, ?_⟩
      rw [← h1, hdel] at h2
      exact Out.ok.inj h2
  · unfold groupEdges
    refine List.mem_map.mpr ⟨ti.params, List.mem_filter.mpr ⟨List.mem_map.mpr ⟨ti0, hm0, ei1⟩, ?_⟩, rfl⟩
    simpa using hp
  · show ti.params.id.toNat = i
    rw [← ei1, hid]; omega
  · intro e he hc
    unfold groupEdges at he
    obtain ⟨t, ht, rfl⟩ := List.mem_map.mp he
    obtain ⟨ht, hpt⟩ := List.mem_filter.mp ht
    obtain ⟨t0, ht0, rfl⟩ := List.mem_map.mp ht
    obtain ⟨x, hx⟩ := List.mem_iff_getElem?.mp ht0
    have hidx := I.dense x t0 hx
    have : x = i := by
      have h : (groupEdge fp dev ts t0.params).c = t0.params.id.toNat := rfl
      rw [hc] at h; omega
    subst this
    rw [hi0] at hx
    have := Option.some.inj hx
    subst this
    rw [ei1]

end NPE
