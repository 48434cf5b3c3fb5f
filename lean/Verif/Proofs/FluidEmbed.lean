import Verif.Proofs.FluidFrame

/-
A workload inside a larger one.
-/

namespace NPE
open NPE.Spec NPE.Spec.Fluid

theorem SameData.fields {t u : Transfer} (h : SameData t u) : u.noc = t.noc ∧ u.src = t.src ∧ u.dst = t.dst ∧
    u.offset = t.offset ∧ u.groupId = t.groupId ∧ u.groupIdx = t.groupIdx ∧ u.groupParent = t.groupParent ∧
    u.injectionRate = t.injectionRate ∧ u.packetSize = t.packetSize := by
  unfold SameData at h; rw [← h]; simp

/-- With a parent: the last segment that has the named index. -/
theorem Init0.waits_named {fp : FP} {dev : Device} {ho : HashOrder} {wl : Workload} {s0 : Sim}
    {ts : List TState} (I : Init0 fp dev ho wl s0 ts) {i : Nat} {ti : TState} (hi : s0.ts[i]? = some ti)
    (hp : HasParent ti.params) (hf : ∃ (j : Nat) (p : TState), s0.ts[j]? = some p ∧ IsParent p.params ti.params)
    (j d : Nat) :
    WaitsFor s0 i j d ↔ (∃ p, s0.ts[j]? = some p ∧ IsParent p.params ti.params ∧
        groupDelay fp dev ti.params p.params.src.dev = .ok d) ∧
      ∀ (j' : Nat) (p' : TState), s0.ts[j']? = some p' → IsParent p'.params ti.params → j' ≤ j := by
  obtain ⟨j0, p0, h0, hp0⟩ := hf
  obtain ⟨q0, h1, h2, _⟩ := I.get h0
  rw [I.waits_group hi hp, parentOf_last I.dense hp h1 (by rw [h2]; exact hp0)]
  constructor
  · rintro ⟨⟨⟨p, a1, a2⟩, a3⟩, a4⟩
    obtain ⟨q, b1, b2, _⟩ := I.get' a1
    refine ⟨⟨q, b1, by rw [← b2]; exact a2, ?_⟩, fun j' p' c1 c2 => ?_⟩
    · unfold devAt at a4
      rw [a1] at a4
      rw [← b2]; exact a4
    · obtain ⟨q', e1, e2, _⟩ := I.get c1
      exact a3 j' q' e1 (by rw [e2]; exact c2)
  · rintro ⟨⟨p, a1, a2, a4⟩, a3⟩
    obtain ⟨q, b1, b2, _⟩ := I.get a1
    refine ⟨⟨⟨q, b1, by rw [b2]; exact a2⟩, fun j' p' c1 c2 => ?_⟩, ?_⟩
    · obtain ⟨q', e1, e2, _⟩ := I.get' c1
      exact a3 j' q' e1 (by rw [← e2]; exact c2)
    · unfold devAt
      rw [b1]
      simp only
      rw [b2]; exact a4

theorem groupDelay_same (fp : FP) (dev : Device) {t u : Transfer} (h : SameData t u) (c : Int) :
    groupDelay fp dev u c = groupDelay fp dev t c := by
  unfold SameData at h; rw [← h]; rfl

theorem sameLane_same {dev : Device} {t u t' u' : TState} (h1 : SameData t.params t'.params)
    (h2 : SameData u.params u'.params) (h3 : t'.route = t.route) (h4 : u'.route = u.route) :
    SameLane dev t' u' ↔ SameLane dev t u := by
  obtain ⟨a1, a2, _⟩ := SameData.fields h1
  obtain ⟨b1, b2, _⟩ := SameData.fields h2
  unfold SameLane FirstLink
  rw [a1, a2, b1, b2, h3, h4]

theorem isParent_same {p t p' t' : Transfer} (h1 : SameData p p') (h2 : SameData t t') :
    IsParent p' t' ↔ IsParent p t := by
  obtain ⟨_, _, _, _, a1, a2, _⟩ := SameData.fields h1
  obtain ⟨_, _, _, _, b1, _, b2, _⟩ := SameData.fields h2
  unfold IsParent
  rw [a1, a2, b1, b2]

section
variable {fp : FP} {dev : Device} {ho ho' : HashOrder} {wl wl' : Workload} {s0 s0' : Sim} {f : Nat → Nat}

/-- The counterpart of a transfer has the same route. -/
theorem embed_get (h0 : initSim fp dev ho wl = .ok s0) (h0' : initSim fp dev ho' wl' = .ok s0')
    (hl : ho'.links = ho.links) (E : Contains s0 s0' f) {i : Nat} {t : TState} (ht : s0.ts[i]? = some t) :
    ∃ t', s0'.ts[f i]? = some t' ∧ SameData t.params t'.params ∧ t'.route = t.route := by
  obtain ⟨t', h1, h2⟩ := E.same i t ht
  refine ⟨t', h1, h2, ?_⟩
  have r1 := ((initSim_ok h0).1.slots i t ht).2.1
  have r2 := ((initSim_ok h0').1.slots _ t' h1).2.1
  obtain ⟨a1, a2, a3, _⟩ := SameData.fields h2
  rw [a1, a2, a3, hl, r1] at r2
  exact (Out.ok.inj r2).symm

theorem sameLane_symm {t u : TState} (h : SameLane dev t u) : SameLane dev u t := by
  obtain ⟨h1, h2, h3, k, h4, h5⟩ := h
  exact ⟨h1.symm, h2.symm, h3.symm, k, h5, h4⟩

theorem firstLink_unique {t : TState} {k k' : Option LinkType} (h : FirstLink dev t k) (h' : FirstLink dev t k') : k = k' := by
  unfold FirstLink at h h'
  split at h
  · rename_i hr
    rw [hr] at h'
    rw [h]; exact h'.symm
  · rename_i l r hr
    rw [hr] at h'
    obtain ⟨a, a1, a2⟩ := h
    obtain ⟨b, b1, b2⟩ := h'
    rw [a1] at b1
    rw [a2, b2, Out.ok.inj b1]

theorem sameLane_trans {t u v : TState} (h : SameLane dev t u) (h' : SameLane dev u v) : SameLane dev t v := by
  obtain ⟨h1, h2, h3, k, h4, h5⟩ := h
  obtain ⟨g1, g2, g3, k', g4, g5⟩ := h'
  refine ⟨h1.trans g1, h2.trans g2, h3.trans g3, k, h4, ?_⟩
  rw [firstLink_unique h5 g4]; exact g5

/-- Places of transfers whose order matters. -/
theorem embed_lt_iff (E : Embeds dev s0 s0' f) {i j : Nat} {t u : TState} (hi : s0.ts[i]? = some t)
    (hj : s0.ts[j]? = some u) (hr : Ranked dev t u) : f j < f i ↔ j < i := by
  have hr' : Ranked dev u t := by
    rcases hr with ⟨h1, h2⟩ | ⟨h1, h2, h3⟩
    · exact Or.inl ⟨sameLane_symm h1, h2.symm⟩
    · exact Or.inr ⟨h1.symm, h2.symm, h1 ▸ h3⟩
  constructor
  · intro h
    by_contra hn
    rcases Nat.lt_or_ge i j with h1 | h1
    · have := E.order i j t u hi hj hr h1; omega
    · have : i = j := by omega
      subst this; omega
  · exact fun h => E.order j i u t hj hi hr' h

theorem embed_earlier (h0 : initSim fp dev ho wl = .ok s0) (h0' : initSim fp dev ho' wl' = .ok s0')
    (hl : ho'.links = ho.links) (E : Embeds dev s0 s0' f) {i j : Nat} (hi : i < s0.ts.length) (hj : j < s0.ts.length)
    (hlane : LaneMates (SameLane dev) s0 j i) : Earlier s0' (f j) (f i) ↔ Earlier s0 j i := by
  have gi : s0.ts[i]? = some s0.ts[i] := List.getElem?_eq_getElem hi
  have gj : s0.ts[j]? = some s0.ts[j] := List.getElem?_eq_getElem hj
  obtain ⟨ti', a1, a2, _⟩ := embed_get h0 h0' hl E.toContains gi
  obtain ⟨tj', b1, b2, _⟩ := embed_get h0 h0' hl E.toContains gj
  obtain ⟨_, _, _, a3, _⟩ := SameData.fields a2
  obtain ⟨_, _, _, b3, _⟩ := SameData.fields b2
  have hm : s0.ts[j].params.offset = s0.ts[i].params.offset → (f j < f i ↔ j < i) := by
    intro ho
    obtain ⟨x, y, c1, c2, c3⟩ := hlane
    rw [gj] at c1; rw [gi] at c2
    rw [← Option.some.inj c1, ← Option.some.inj c2] at c3
    exact embed_lt_iff E gi gj (Or.inl ⟨sameLane_symm c3, ho.symm⟩)
  constructor
  · rintro ⟨x, y, c1, c2, c3⟩
    rw [b1] at c1; rw [a1] at c2
    have e1 := Option.some.inj c1
    have e2 := Option.some.inj c2
    subst e1; subst e2
    rw [a3, b3] at c3
    exact ⟨_, _, gj, gi, c3.imp id fun h => ⟨h.1, (hm h.1).mp h.2⟩⟩
  · rintro ⟨x, y, c1, c2, c3⟩
    rw [gj] at c1; rw [gi] at c2
    have e1 := Option.some.inj c1
    have e2 := Option.some.inj c2
    subst e1; subst e2
    refine ⟨_, _, b1, a1, ?_⟩
    rw [a3, b3]
    exact c3.imp id fun h => ⟨h.1, (hm h.1).mpr h.2⟩

theorem embed_mates (h0 : initSim fp dev ho wl = .ok s0) (h0' : initSim fp dev ho' wl' = .ok s0')
    (hl : ho'.links = ho.links) (E : Embeds dev s0 s0' f) (hu : FurtherUnrelated dev s0 s0' f) {i : Nat}
    (hi : i < s0.ts.length) (j' : Nat) :
    LaneMates (SameLane dev) s0' j' (f i) ↔ ∃ j, j < s0.ts.length ∧ f j = j' ∧ LaneMates (SameLane dev) s0 j i := by
  have gi : s0.ts[i]? = some s0.ts[i] := List.getElem?_eq_getElem hi
  obtain ⟨ti', a1, a2, a3⟩ := embed_get h0 h0' hl E.toContains gi
  constructor
  · rintro ⟨u, y, c1, c2, c3⟩
    rw [a1] at c2
    have e2 := Option.some.inj c2
    subst e2
    by_cases hx : ∃ j, j < s0.ts.length ∧ f j = j'
    · obtain ⟨j, hj, rfl⟩ := hx
      have gj : s0.ts[j]? = some s0.ts[j] := List.getElem?_eq_getElem hj
      obtain ⟨tj', b1, b2, b3⟩ := embed_get h0 h0' hl E.toContains gj
      rw [b1] at c1
      have e1 := Option.some.inj c1
      subst e1
      exact ⟨j, hj, rfl, _, _, gj, gi, (sameLane_same b2 a2 b3 a3).mp c3⟩
    · exfalso
      have hun := hu j' u c1 (fun j hj e => hx ⟨j, hj, e⟩) i _ gi
      refine hun.lane ?_
      obtain ⟨d1, d2, _⟩ := SameData.fields a2
      unfold SameLane FirstLink at c3 ⊢
      rw [d1, d2, a3] at c3
      exact c3
  · rintro ⟨j, hj, rfl, x, y, c1, c2, c3⟩
    obtain ⟨tj', b1, b2, b3⟩ := embed_get h0 h0' hl E.toContains c1
    rw [gi] at c2
    have e2 := Option.some.inj c2
    subst e2
    exact ⟨tj', ti', b1, a1, (sameLane_same b2 a2 b3 a3).mpr c3⟩

theorem mates_lt {lane : TState → TState → Prop} {s : Sim} {j i : Nat} (h : LaneMates lane s j i) : j < s.ts.length := by
  obtain ⟨_, _, h, _⟩ := h
  exact (List.getElem?_eq_some_iff.mp h).1

theorem mates_both {s : Sim} {j k i : Nat} (h : LaneMates (SameLane dev) s j i) (h' : LaneMates (SameLane dev) s k i) :
    LaneMates (SameLane dev) s j k := by
  obtain ⟨x, y, c1, c2, c3⟩ := h
  obtain ⟨x', y', d1, d2, d3⟩ := h'
  rw [c2] at d2
  rw [← Option.some.inj d2] at d3
  exact ⟨x, x', c1, d1, sameLane_trans c3 (sameLane_symm d3)⟩

theorem embed_twoBefore (h0 : initSim fp dev ho wl = .ok s0) (h0' : initSim fp dev ho' wl' = .ok s0')
    (hl : ho'.links = ho.links) (E : Embeds dev s0 s0' f) (hu : FurtherUnrelated dev s0 s0' f) {i : Nat}
    (hi : i < s0.ts.length) (j' : Nat) :
    TwoBefore (SameLane dev) s0' j' (f i) ↔
      ∃ j, j < s0.ts.length ∧ f j = j' ∧ TwoBefore (SameLane dev) s0 j i := by
  have ear := fun {a b : Nat} (ha : a < s0.ts.length) (hb : b < s0.ts.length) (hab : LaneMates (SameLane dev) s0 b a) =>
    embed_earlier h0 h0' hl E (i := a) (j := b) ha hb hab
  have mat := embed_mates h0 h0' hl E hu hi
  constructor
  · rintro ⟨c1, c2, k', ⟨c3, c4, c5⟩, c6⟩
    obtain ⟨j, hj, rfl, d1⟩ := (mat j').mp c1
    obtain ⟨k, hk, rfl, d3⟩ := (mat k').mp c3
    refine ⟨j, hj, rfl, d1, (ear hi hj d1).mp c2, k, ⟨d3, (ear hk hj (mates_both d1 d3)).mp c4, (ear hi hk d3).mp c5⟩, ?_⟩
    rintro y ⟨y1, y2, y3⟩
    have hy := mates_lt y1
    exact E.inj (c6 (f y) ⟨(mat (f y)).mpr ⟨y, hy, rfl, y1⟩, (ear hy hj (mates_both d1 y1)).mpr y2, (ear hi hy y1).mpr y3⟩)
  · rintro ⟨j, hj, rfl, d1, d2, k, ⟨d3, d4, d5⟩, d6⟩
    have hk := mates_lt d3
    refine ⟨(mat (f j)).mpr ⟨j, hj, rfl, d1⟩, (ear hi hj d1).mpr d2, f k,
      ⟨(mat (f k)).mpr ⟨k, hk, rfl, d3⟩, (ear hk hj (mates_both d1 d3)).mpr d4, (ear hi hk d3).mpr d5⟩, ?_⟩
    rintro y' ⟨y1, y2, y3⟩
    obtain ⟨y, hy, rfl, e1⟩ := (mat y').mp y1
    rw [d6 y ⟨e1, (ear hy hj (mates_both d1 e1)).mp y2, (ear hi hy e1).mp y3⟩]

/-- Counterparts wait for counterparts. -/
theorem embed_waits (h0 : initSim fp dev ho wl = .ok s0) (h0' : initSim fp dev ho' wl' = .ok s0')
    (hb : ∀ l, (ho.buckets l).Perm l) (hb' : ∀ l, (ho'.buckets l).Perm l)
    (hl : ho'.links = ho.links) (E : Embeds dev s0 s0' f) (hu : FurtherUnrelated dev s0 s0' f) (hpf : ParentsFound s0)
    {i : Nat} (hi : i < s0.ts.length) (j' d : Nat) :
    WaitsFor s0' (f i) j' d ↔ ∃ j, j < s0.ts.length ∧ f j = j' ∧ WaitsFor s0 i j d := by
  have gi : s0.ts[i]? = some s0.ts[i] := List.getElem?_eq_getElem hi
  obtain ⟨ti', a1, a2, a3⟩ := embed_get h0 h0' hl E.toContains gi
  obtain ⟨_, I⟩ := init0 h0
  obtain ⟨_, I'⟩ := init0 h0'
  obtain ⟨_, _, _, _, g1, _, g2, _⟩ := SameData.fields a2
  have hpp : HasParent ti'.params ↔ HasParent s0.ts[i].params := by
    unfold HasParent; rw [g1, g2]
  by_cases hp : HasParent s0.ts[i].params
  · obtain ⟨j0, p0, q1, q2⟩ := hpf i _ gi hp
    obtain ⟨p0', q3, q4, _⟩ := embed_get h0 h0' hl E.toContains q1
    rw [I'.waits_named a1 (hpp.mpr hp) ⟨_, p0', q3, (isParent_same q4 a2).mpr q2⟩]
    have back : ∀ (j' : Nat) (p' : TState), s0'.ts[j']? = some p' → IsParent p'.params ti'.params →
        ∃ j p, s0.ts[j]? = some p ∧ f j = j' ∧ SameData p.params p'.params ∧ IsParent p.params s0.ts[i].params := by
      intro j' p' c1 c2
      by_cases hx : ∃ j, j < s0.ts.length ∧ f j = j'
      · obtain ⟨j, hj, rfl⟩ := hx
        have gj : s0.ts[j]? = some s0.ts[j] := List.getElem?_eq_getElem hj
        obtain ⟨tj', b1, b2, b3⟩ := embed_get h0 h0' hl E.toContains gj
        rw [b1] at c1
        have e1 := Option.some.inj c1
        subst e1
        exact ⟨j, _, gj, rfl, b2, (isParent_same b2 a2).mp c2⟩
      · exfalso
        refine (hu j' p' c1 (fun j hj e => hx ⟨j, hj, e⟩) i _ gi).parent hp ?_
        obtain ⟨_, _, _, _, g1, _, g2, _⟩ := SameData.fields a2
        unfold IsParent at c2 ⊢
        rw [g1, g2] at c2
        exact c2
    have rank : ∀ {p q : TState}, IsParent p.params s0.ts[i].params → IsParent q.params s0.ts[i].params → Ranked dev p q :=
      fun h1 h2 => Or.inr ⟨h1.1.trans h2.1.symm, h1.2.1.trans h2.2.1.symm, by rw [h1.1]; exact hp.1⟩
    constructor
    · rintro ⟨⟨p', c1, c2, c3⟩, c4⟩
      obtain ⟨j, p, e1, rfl, e3, e4⟩ := back j' p' c1 c2
      refine ⟨j, (List.getElem?_eq_some_iff.mp e1).1, rfl, ?_⟩
      rw [I.waits_named gi hp ⟨_, _, q1, q2⟩]
      refine ⟨⟨p, e1, e4, ?_⟩, fun k pk k1 k2 => ?_⟩
      · rw [groupDelay_same fp dev a2, (SameData.fields e3).2.1] at c3
        exact c3
      · obtain ⟨pk', k3, k4, _⟩ := embed_get h0 h0' hl E.toContains k1
        have := c4 _ pk' k3 ((isParent_same k4 a2).mpr k2)
        have hr := embed_lt_iff E k1 e1 (rank k2 e4)
        omega
    · rintro ⟨j, hj, rfl, hw⟩
      rw [I.waits_named gi hp ⟨_, _, q1, q2⟩] at hw
      obtain ⟨⟨p, e1, e4, e5⟩, e6⟩ := hw
      obtain ⟨p', b1, b2, _⟩ := embed_get h0 h0' hl E.toContains e1
      refine ⟨⟨p', b1, (isParent_same b2 a2).mpr e4, ?_⟩, fun k' pk' k1 k2 => ?_⟩
      · rw [groupDelay_same fp dev a2, (SameData.fields b2).2.1]; exact e5
      · obtain ⟨k, pk, k3, rfl, _, k5⟩ := back k' pk' k1 k2
        have := e6 k pk k3 k5
        have hr := embed_lt_iff E k3 e1 (rank k5 e4)
        omega
  · rw [I'.waits_niu hb' a1 (fun h => hp (hpp.mp h)), embed_twoBefore h0 h0' hl E hu hi]
    constructor
    · rintro ⟨rfl, j, hj, rfl, h⟩
      exact ⟨j, hj, rfl, (I.waits_niu hb gi hp j 0).mpr ⟨rfl, h⟩⟩
    · rintro ⟨j, hj, rfl, h⟩
      obtain ⟨e1, e2⟩ := (I.waits_niu hb gi hp j d).mp h
      exact ⟨e1, j, hj, rfl, e2⟩

/-- The jobs of an initial state. -/
theorem describes_exists (h0 : initSim fp dev ho wl = .ok s0) : ∃ job, Describes job s0 := by
  classical
  have hi := init_inv h0
  refine ⟨fun i => match s0.ts[i]? with
    | none => ⟨Transfer.make 0 0 ⟨0, 0, 0⟩ (.unicast ⟨0, 0, 0⟩) 0 0 .noc0, [], none⟩
    | some t => ⟨t.params, t.route, if h : ∃ p : Nat × Nat, WaitsFor s0 i p.1 p.2 then some h.choose else none⟩, ?_⟩
  intro i t ht
  simp only [ht]
  refine ⟨trivial, trivial, fun j d => ?_⟩
  rcases hi.waits_cases ht with ⟨_, h2⟩ | ⟨j0, d0, hw, hun⟩
  · rw [dif_neg (fun ⟨p, hp⟩ => h2 _ _ hp)]
    exact ⟨fun h => (by cases h), fun h => absurd h (h2 j d)⟩
  · have hex : ∃ p : Nat × Nat, WaitsFor s0 i p.1 p.2 := ⟨(j0, d0), hw⟩
    rw [dif_pos hex]
    obtain ⟨e1, e2⟩ := hun _ _ hex.choose_spec
    constructor
    · intro h
      rw [Option.some.inj h] at e1 e2
      simp only at e1 e2
      rw [e1, e2]; exact hw
    · intro h
      obtain ⟨e3, e4⟩ := hun _ _ h
      rw [e3, e4, ← e1, ← e2]

theorem embed_frame (h0 : initSim fp dev ho wl = .ok s0) (h0' : initSim fp dev ho' wl' = .ok s0')
    (hb : ∀ l, (ho.buckets l).Perm l) (hb' : ∀ l, (ho'.buckets l).Perm l)
    (hl : ho'.links = ho.links) (E : Embeds dev s0 s0' f) (hu : FurtherUnrelated dev s0 s0' f) (hpf : ParentsFound s0)
    {job job' : Nat → Job} (hd : Describes job s0) (hd' : Describes job' s0') :
    Frame s0.ts.length f job job' := by
  have get : ∀ i, i < s0.ts.length → ∃ t t', s0.ts[i]? = some t ∧ s0'.ts[f i]? = some t' ∧
      SameData t.params t'.params ∧ t'.route = t.route := by
    intro i hi
    obtain ⟨t', a1, a2, a3⟩ := embed_get h0 h0' hl E.toContains (List.getElem?_eq_getElem hi)
    exact ⟨_, t', List.getElem?_eq_getElem hi, a1, a2, a3⟩
  refine ⟨fun i hi => ?_, fun i hi => ?_, fun i hi => ?_, fun i hi j d ha => ?_⟩
  · obtain ⟨t, t', a1, a2, a3, a4⟩ := get i hi
    rw [(hd i t a1).1, (hd' _ t' a2).1]; exact a3
  · obtain ⟨t, t', a1, a2, a3, a4⟩ := get i hi
    rw [(hd i t a1).2.1, (hd' _ t' a2).2.1]; exact a4
  · obtain ⟨t, t', a1, a2, a3, a4⟩ := get i hi
    have e := (hd i t a1).2.2
    have e' := (hd' _ t' a2).2.2
    have hw := embed_waits h0 h0' hb hb' hl E hu hpf hi
    cases ha : (job i).after with
    | none =>
      cases ha' : (job' (f i)).after with
      | none => rfl
      | some p =>
        obtain ⟨j, _, _, h⟩ := (hw p.1 p.2).mp ((e' p.1 p.2).mp ha')
        rw [(e j p.2).mpr h] at ha
        cases ha
    | some p =>
      have h := (e p.1 p.2).mp ha
      obtain ⟨_, _, _, _, h2, _⟩ := id h
      exact (e' (f p.1) p.2).mpr ((hw _ _).mpr ⟨p.1, (List.getElem?_eq_some_iff.mp h2).1, rfl, h⟩)
  · obtain ⟨t, t', a1, a2, a3, a4⟩ := get i hi
    obtain ⟨_, _, _, _, h2, _⟩ := ((hd i t a1).2.2 j d).mp ha
    exact (List.getElem?_eq_some_iff.mp h2).1

/-- Resources of the smaller workload that no further transfer uses. -/
theorem embed_private (h0' : initSim fp dev ho' wl' = .ok s0')
    (hu : FurtherUnrelated dev s0 s0' f)
    (hrect : ∀ t ∈ wl'.transfers, RectsOk t)
    {job job' : Nat → Job} (hd : Describes job s0) (hd' : Describes job' s0') :
    Private dev s0.ts.length s0'.ts.length f job job' := by
  have get : ∀ i', i' < s0'.ts.length → (∀ i, i < s0.ts.length → f i ≠ i') → ∀ i, i < s0.ts.length →
      ∃ t u, s0.ts[i]? = some t ∧ s0'.ts[i']? = some u ∧ (job i).t = t.params ∧ (job i).route = t.route ∧
        (job' i').t = u.params ∧ (job' i').route = u.route ∧ Apart dev t u := by
    intro i' hi' hne i hi
    have g1 : s0.ts[i]? = some s0.ts[i] := List.getElem?_eq_getElem hi
    have g2 : s0'.ts[i']? = some s0'.ts[i'] := List.getElem?_eq_getElem hi'
    exact ⟨_, _, g1, g2, (hd i _ g1).1, (hd i _ g1).2.1, (hd' i' _ g2).1, (hd' i' _ g2).2.1,
      (hu i' _ g2 hne i _ g1).apart⟩
  refine ⟨fun i' hi' hne i hi l hlm => ?_, fun i' hi' hne i hi c => ?_, fun i' hi' hne i hi d hdst c => ?_⟩
  · obtain ⟨t, u, g1, g2, e1, e2, e3, e4, A⟩ := get i' hi' hne i hi
    rw [e4]; rw [e2] at hlm
    exact A.links l hlm
  · obtain ⟨t, u, g1, g2, e1, e2, e3, e4, A⟩ := get i' hi' hne i hi
    unfold leaves Job.began
    simp only
    rw [e1, e3]
    refine if_neg ?_
    rintro ⟨h1, h2⟩
    exact A.sources h1.symm ⟨fun h => (h2.1 h).symm, h2.2.1.symm, h2.2.2.symm⟩
  · obtain ⟨t, u, g1, g2, e1, e2, e3, e4, A⟩ := get i' hi' hne i hi
    have hr := hrect _ ((initSim_ok h0').1.slots i' u g2).1
    rw [e1] at hdst
    have hdt : DeliversTo t.params d := by unfold DeliversTo; rw [hdst]
    unfold reaches Job.began
    simp only
    rw [e1, e3]
    by_cases hn : u.params.noc = t.params.noc
    · rw [if_pos hn]
      cases hu' : u.params.dst with
      | unicast e =>
        simp only
        refine if_neg fun h => ?_
        refine A.sinks hn.symm d e hdt (by unfold DeliversTo; rw [hu']) ?_
        exact ⟨fun x => (h.1 x).symm, h.2.1.symm, h.2.2.symm⟩
      | mcast gs =>
        simp only
        split
        · rw [List.countP_eq_zero]
          intro g hg hc
          simp only [decide_eq_true_eq] at hc
          refine A.sinks hn.symm d ⟨g.lo.dev, d.row, d.col⟩ hdt ?_ ⟨hc.1, rfl, rfl⟩
          unfold DeliversTo
          rw [hu']
          exact ⟨g, hg, rfl, hc.2⟩
        · rfl
    · rw [if_neg hn]

end

/-- Once finished, a transfer stays as it is. -/
theorem run_finished_succ {fl : ℚ → ℚ} {job : Nat → Job} {cpt : Nat} {speed : Speed} {k i c e : Nat}
    (h : run fl job cpt speed k i = .finished c e) : run fl job cpt speed (k + 1) i = .finished c e := by
  show Fluid.advance fl job cpt speed _ (Fluid.start job _ _) i = _
  unfold Fluid.advance
  rw [start_finished.mpr h]

theorem run_finished_le {fl : ℚ → ℚ} {job : Nat → Job} {cpt : Nat} {speed : Speed} {k k' i c e : Nat} (hk : k ≤ k')
    (h : run fl job cpt speed k i = .finished c e) : run fl job cpt speed k' i = .finished c e := by
  obtain ⟨m, rfl⟩ := Nat.exists_eq_add_of_le hk
  clear hk
  induction m with
  | zero => exact h
  | succ m ih => exact run_finished_succ ih

/-- All transfers wait at the start. -/
theorem init_waiting {fp : FP} {dev : Device} {ho : HashOrder} {wl : Workload} {s0 : Sim}
    (h0 : initSim fp dev ho wl = .ok s0) : ∀ i, i < s0.ts.length → Waiting s0 i := by
  intro i hi
  have h := (initSim_ok h0).1.queue.symm.subset (List.mem_range.mpr hi)
  obtain ⟨x, hx, rfl⟩ := List.mem_map.mp h
  exact ⟨x.1, hx⟩

/-- Something is left to do exactly if some transfer is not finished. -/
theorem shows_left {prev : Nat} {s : Sim} (hi : Inv prev s) {σ : Fluid.State} (hs : Shows s σ) :
    (s.live = [] ∧ s.queue = []) ↔ AllFinished s.ts.length σ := by
  constructor
  · rintro ⟨h1, h2⟩ i hlt
    have := hs i _ (List.getElem?_eq_getElem hlt)
    cases hσ : σ i with
    | waiting =>
      rw [hσ] at this
      obtain ⟨o, h⟩ := this
      rw [h2] at h; simp at h
    | active c m =>
      rw [hσ] at this
      have h := this.1
      unfold Active at h
      rw [h1] at h; simp at h
    | finished c e => exact ⟨c, e, rfl⟩
  · intro h
    have key : ∀ i, i < s.ts.length → ¬ Waiting s i ∧ ¬ Active s i := by
      intro i hlt
      have := hs i _ (List.getElem?_eq_getElem hlt)
      obtain ⟨c, e, hσ⟩ := h i hlt
      rw [hσ] at this
      obtain ⟨⟨_, _, _, h1, h2⟩, _⟩ := this
      exact ⟨h1, h2⟩
    constructor
    · rw [List.eq_nil_iff_forall_not_mem]
      intro i hm
      exact (key i (hi.lt i (List.mem_append_right _ hm))).2 hm
    · rw [List.eq_nil_iff_forall_not_mem]
      intro x hm
      exact (key x.2 (hi.lt x.2 (List.mem_append_left _ (List.mem_map.mpr ⟨x, hm, rfl⟩)))).1 ⟨x.1, hm⟩

theorem allFinished_le {fl : ℚ → ℚ} {job : Nat → Job} {cpt : Nat} {speed : Speed} {n k k' : Nat} (hk : k ≤ k')
    (h : AllFinished n (run fl job cpt speed k)) : AllFinished n (run fl job cpt speed k') := by
  intro i hi
  obtain ⟨c, e, he⟩ := h i hi
  exact ⟨c, e, run_finished_le hk he⟩

/-- The end of a run whose states are shown by `run`. -/
theorem endsAs_of_shows {cfg : SimCfg} (hpos : 0 < cfg.cpt) (hr : RatesOk cfg.rates) {ho : HashOrder} {wl : Workload}
    {s0 : Sim} (h0 : initSim cfg.fp cfg.dev ho wl = .ok s0) {fl : ℚ → ℚ} {job : Nat → Job} {speed : Speed}
    (hsh : ∀ c s, Reach cfg s0 c s → ∃ k, c = k * cfg.cpt ∧ Shows s (run fl job cfg.cpt speed k))
    {e : Ending} (h : runLoop cfg ho wl = .ok e) : EndsAs s0.ts.length cfg.cpt (run fl job cfg.cpt speed) e := by
  unfold runLoop at h
  rw [h0, Out.bind_ok] at h
  have hi0 := init_inv h0
  have len : ∀ {c : Nat} {s : Sim}, Reach cfg s0 c s → s.ts.length = s0.ts.length := by
    intro c s hs
    have := congrArg List.length (hs.stat hr hi0)
    simpa using this
  have left : ∀ {c : Nat} {s : Sim}, Reach cfg s0 c s → ∀ k, c = k * cfg.cpt →
      ((s.live = [] ∧ s.queue = []) ↔ AllFinished s0.ts.length (run fl job cfg.cpt speed k)) := by
    intro c s hs k hk
    obtain ⟨k2, e1, e2⟩ := hsh c s hs
    have : k2 = k := Nat.eq_of_mul_eq_mul_right hpos (by rw [← e1, ← hk])
    subst this
    rw [← len hs]
    exact shows_left (hs.inv hr hi0) e2
  rcases simLoop_reach (cfg := cfg) (s0 := s0) simFuel 0 s0 e .start (Or.inl rfl) (by rw [Nat.zero_add]; exact h) with
    ⟨s, c, rfl, hs, h1, h2, h3⟩ | ⟨s, c, rfl, hs, h1, h2⟩
  · obtain ⟨k, e1, e2⟩ := hsh c s hs
    have hk : 1 ≤ k := by
      rcases Nat.eq_zero_or_pos k with rfl | hp
      · omega
      · exact hp
    have all := (left hs k e1).mp ⟨h1, h2⟩
    refine ⟨len hs, k, hk, e1, fun i t ht => ?_, fun k' hk1 hk2 hall => ?_⟩
    · obtain ⟨a, b, hab⟩ := all i (by rw [← len hs]; exact (List.getElem?_eq_some_iff.mp ht).1)
      have := e2 i t ht
      rw [hab] at this
      rw [hab, this.2.1, this.2.2]
    · cases hs with
      | start => omega
      | @step cp sp _ hsp hcond hst =>
        obtain ⟨m, m1, m2⟩ := hsh cp sp hsp
        have hm : k = m + 1 := Nat.eq_of_mul_eq_mul_right hpos (by rw [← e1, m1]; ring)
        rcases hcond with rfl | ⟨_, hc⟩
        · have : m = 0 := by
            rcases Nat.mul_eq_zero.mp m1.symm with h | h <;> omega
          omega
        · exact hc ((left hsp m m1).mpr (allFinished_le (by omega) hall))
  · obtain ⟨k, e1, e2⟩ := hsh c s hs
    refine ⟨len hs, k, e1, ?_, fun hall => h2 ((left hs k e1).mpr hall)⟩
    unfold MAX_CYCLE_LIMIT at h1
    exact h1

end NPE

namespace NPE
open NPE.Spec NPE.Spec.Fluid

/-- Two runs whose descriptions agree: if the larger one finishes, so does the smaller one, no later and with the same
times. -/
theorem same_times {n n' cpt : Nat} {f : Nat → Nat} (hf : ∀ i, i < n → f i < n')
    {fl : ℚ → ℚ} {job job' : Nat → Job} {speed speed' : Speed}
    (hA : ∀ k, Agree n f (run fl job cpt speed k) (run fl job' cpt speed' k))
    {e : Ending} {s' : Sim} {c' : Nat} (h : EndsAs n cpt (run fl job cpt speed) e)
    (h' : EndsAs n' cpt (run fl job' cpt speed') (.finished s' c')) (hc' : c' ≤ 50000000 + cpt) :
    ∃ s c, e = .finished s c ∧ c ≤ c' ∧ ∀ (i : Nat) (t : TState), s.ts[i]? = some t →
      ∃ t', s'.ts[f i]? = some t' ∧ t'.start = t.start ∧ t'.endc = t.endc := by
  obtain ⟨l', k', a1, a2, a3, _⟩ := h'
  have get : ∀ i, i < n → ∃ t', s'.ts[f i]? = some t' ∧ run fl job cpt speed k' i = .finished t'.start t'.endc := by
    intro i hi
    have hlt : f i < s'.ts.length := by rw [l']; exact hf i hi
    refine ⟨_, List.getElem?_eq_getElem hlt, ?_⟩
    rw [← hA k' i hi]
    exact a3 _ _ (List.getElem?_eq_getElem hlt)
  have all : AllFinished n (run fl job cpt speed k') := by
    intro i hi
    obtain ⟨t', _, h2⟩ := get i hi
    exact ⟨_, _, h2⟩
  cases e with
  | limit s c =>
    obtain ⟨_, k, b1, b2, b3⟩ := h
    exfalso
    refine b3 (allFinished_le ?_ all)
    have h1 : k' * cpt < (k + 1) * cpt := by
      have : (k + 1) * cpt = k * cpt + cpt := by ring
      omega
    have := Nat.lt_of_mul_lt_mul_right h1
    omega
  | finished s c =>
    obtain ⟨l, k, b1, b2, b3, b4⟩ := h
    have hk : k ≤ k' := by
      by_contra hcon
      exact b4 k' a1 (by omega) all
    refine ⟨s, c, rfl, by rw [b2, a2]; exact Nat.mul_le_mul_right _ hk, fun i t ht => ?_⟩
    obtain ⟨t', h1, h2⟩ := get i (by rw [← l]; exact (List.getElem?_eq_some_iff.mp ht).1)
    have h3 := run_finished_le hk (b3 i t ht)
    rw [h2] at h3
    obtain ⟨x1, x2⟩ := Prog.finished.inj h3
    exact ⟨t', h1, x1, x2⟩

theorem finished_le {cfg : SimCfg} {ho : HashOrder} {wl : Workload} {s : Sim} {c : Nat}
    (h : runLoop cfg ho wl = .ok (.finished s c)) : c ≤ 50000000 + cfg.cpt := by
  unfold runLoop at h
  obtain ⟨s0, h0, h⟩ := Out.bind_eq_ok.mp h
  rcases simLoop_reach (cfg := cfg) (s0 := s0) simFuel 0 s0 _ .start (Or.inl rfl) (by rw [Nat.zero_add]; exact h) with
    ⟨s', c', he, hs, h1, h2, h3⟩ | ⟨s', c', he, hs, h1, h2⟩
  · obtain ⟨rfl, rfl⟩ := Ending.finished.inj he
    cases hs with
    | start => omega
    | step hsp hcond hst => omega
  · cases he

/-- The order of links matters for multicasts only. -/
theorem initTransferState_links {dev : Device} {l l' : List Int → List Int} {wl : Workload}
    (h : l' = l ∨ ∀ t ∈ wl.transfers, ∃ d, t.dst = .unicast d) :
    initTransferState dev l' wl = initTransferState dev l wl := by
  rcases h with rfl | h
  · rfl
  · have e : Out.foldlM (initOne dev l' wl.transfers.length) (List.replicate wl.transfers.length none) wl.transfers =
        Out.foldlM (initOne dev l wl.transfers.length) (List.replicate wl.transfers.length none) wl.transfers := by
      refine foldlM_congr' _ _ fun t ht s => ?_
      obtain ⟨d, hd⟩ := h t ht
      unfold initOne
      rw [hd]
      rfl
    unfold initTransferState
    simp only [e]

/-- The order of the buckets does not change what a transfer waits for. -/
theorem buckets_frame {fp : FP} {dev : Device} {ho ho' : HashOrder} {wl : Workload} {s0 s0' : Sim}
    (h0 : initSim fp dev ho wl = .ok s0) (h0' : initSim fp dev ho' wl = .ok s0')
    (hb : ∀ l, (ho.buckets l).Perm l) (hb' : ∀ l, (ho'.buckets l).Perm l)
    (hl : ho'.links = ho.links ∨ ∀ t ∈ wl.transfers, ∃ d, t.dst = .unicast d)
    {job job' : Nat → Job} (hd : Describes job s0) (hd' : Describes job' s0') :
    s0'.ts.length = s0.ts.length ∧ Frame s0.ts.length id job job' := by
  obtain ⟨ts, I⟩ := init0 h0
  obtain ⟨ts', I'⟩ := init0 h0'
  have hts : ts' = ts := by
    have a := I.state
    have b := I'.state
    rw [initTransferState_links hl, a] at b
    exact (Out.ok.inj b).symm
  subst hts
  have hlen : s0'.ts.length = s0.ts.length := by
    rw [(initSim_ok h0).1.len, (initSim_ok h0').1.len]
  have get : ∀ (i : Nat) (t : TState), s0.ts[i]? = some t → ∃ t', s0'.ts[i]? = some t' ∧ t'.params = t.params ∧
      t'.route = t.route := by
    intro i t ht
    obtain ⟨q, h1, h2, h3⟩ := I.get ht
    obtain ⟨q', h4, h5, h6⟩ := I'.get' h1
    exact ⟨q', h4, by rw [← h5, h2], by rw [← h6.1, h3.1]⟩
  have get' : ∀ (i : Nat) (t' : TState), s0'.ts[i]? = some t' → ∃ t, s0.ts[i]? = some t ∧ t'.params = t.params ∧
      t'.route = t.route := by
    intro i t ht
    obtain ⟨q, h1, h2, h3⟩ := I'.get ht
    obtain ⟨q', h4, h5, h6⟩ := I.get' h1
    exact ⟨q', h4, by rw [← h5, h2], by rw [← h6.1, h3.1]⟩
  have mates : ∀ a b, LaneMates (SameLane dev) s0' a b ↔ LaneMates (SameLane dev) s0 a b := by
    intro a b
    have lane : ∀ {t u t' u' : TState}, t'.params = t.params → u'.params = u.params → t'.route = t.route →
        u'.route = u.route → (SameLane dev t' u' ↔ SameLane dev t u) := by
      intro t u t' u' e1 e2 e3 e4
      unfold SameLane FirstLink
      rw [e1, e2, e3, e4]
    constructor
    · rintro ⟨x, y, c1, c2, c3⟩
      obtain ⟨x', d1, d2, d3⟩ := get' _ _ c1
      obtain ⟨y', f1, f2, f3⟩ := get' _ _ c2
      exact ⟨x', y', d1, f1, (lane d2 f2 d3 f3).mp c3⟩
    · rintro ⟨x, y, c1, c2, c3⟩
      obtain ⟨x', d1, d2, d3⟩ := get _ _ c1
      obtain ⟨y', f1, f2, f3⟩ := get _ _ c2
      exact ⟨x', y', d1, f1, (lane d2 f2 d3 f3).mpr c3⟩
  have early : ∀ a b, Earlier s0' a b ↔ Earlier s0 a b := by
    intro a b
    constructor
    · rintro ⟨x, y, c1, c2, c3⟩
      obtain ⟨x', d1, d2, d3⟩ := get' _ _ c1
      obtain ⟨y', f1, f2, f3⟩ := get' _ _ c2
      exact ⟨x', y', d1, f1, by rw [← d2, ← f2]; exact c3⟩
    · rintro ⟨x, y, c1, c2, c3⟩
      obtain ⟨x', d1, d2, d3⟩ := get _ _ c1
      obtain ⟨y', f1, f2, f3⟩ := get _ _ c2
      exact ⟨x', y', d1, f1, by rw [d2, f2]; exact c3⟩
  have waits : ∀ i t, s0.ts[i]? = some t → ∀ j d, WaitsFor s0' i j d ↔ WaitsFor s0 i j d := by
    intro i t ht j d
    obtain ⟨t', ht', e1, _⟩ := get i t ht
    by_cases hp : HasParent t.params
    · rw [I'.waits_group ht' (by rw [e1]; exact hp), I.waits_group ht hp, e1]
    · rw [I'.waits_niu hb' ht' (by rw [e1]; exact hp), I.waits_niu hb ht hp]
      unfold TwoBefore
      simp only [mates, early]
  refine ⟨hlen, fun i hi => ?_, fun i hi => ?_, fun i hi => ?_, fun i hi j d ha => ?_⟩
  · have ht := List.getElem?_eq_getElem hi
    obtain ⟨t', a1, a2, a3⟩ := get i _ ht
    show SameData (job i).t (job' i).t
    rw [(hd i _ ht).1, (hd' i t' a1).1, a2]
    rfl
  · have ht := List.getElem?_eq_getElem hi
    obtain ⟨t', a1, a2, a3⟩ := get i _ ht
    rw [(hd i _ ht).2.1]
    exact (hd' i t' a1).2.1.trans a3
  · have ht := List.getElem?_eq_getElem hi
    obtain ⟨t', a1, a2, a3⟩ := get i _ ht
    have e := (hd i _ ht).2.2
    have e' := (hd' i t' a1).2.2
    have key : ∀ p : Nat × Nat, (job' i).after = some p ↔ (job i).after = some p := by
      intro p
      exact (e' p.1 p.2).trans ((waits i _ ht p.1 p.2).trans (e p.1 p.2).symm)
    show (job' i).after = ((job i).after).map fun p => (p.1, p.2)
    cases h1 : (job i).after with
    | none =>
      cases h2 : (job' i).after with
      | none => rfl
      | some p => rw [(key p).mp h2] at h1; cases h1
    | some p => exact (key p).mpr h1
  · have ht := List.getElem?_eq_getElem hi
    obtain ⟨_, _, _, _, h2, _⟩ := ((hd i _ ht).2.2 j d).mp ha
    exact (List.getElem?_eq_some_iff.mp h2).1

theorem embed_lt {s0 s0' : Sim} {f : Nat → Nat} (hE : Contains s0 s0' f) {i : Nat} (hi : i < s0.ts.length) :
    f i < s0'.ts.length := by
  obtain ⟨t', h, _⟩ := hE.same i _ (List.getElem?_eq_getElem hi)
  exact (List.getElem?_eq_some_iff.mp h).1

/-- With a function that keeps the order, all of the order is kept. -/
theorem embeds_of_mono {dev : Device} {s0 s0' : Sim} {f : Nat → Nat} (hf : StrictMono f)
    (hs : ∀ (i : Nat) (t : TState), s0.ts[i]? = some t → ∃ t', s0'.ts[f i]? = some t' ∧ SameData t.params t'.params) :
    Embeds dev s0 s0' f := ⟨⟨hf.injective, hs⟩, fun _ _ _ _ _ _ _ h => hf h⟩

/-- If both workloads have the same number of transfers, there are no further ones. -/
theorem embed_onto {s0 s0' : Sim} {f : Nat → Nat} (hE : Contains s0 s0' f) (hlen : s0'.ts.length = s0.ts.length)
    {i' : Nat} (hi' : i' < s0'.ts.length) : ∃ i, i < s0.ts.length ∧ f i = i' := by
  have hsub : (Finset.range s0.ts.length).image f ⊆ Finset.range s0.ts.length := by
    intro x hx
    obtain ⟨i, hi, rfl⟩ := Finset.mem_image.mp hx
    rw [Finset.mem_range] at hi ⊢
    rw [← hlen]; exact embed_lt hE hi
  have heq := Finset.eq_of_subset_of_card_le hsub (by rw [Finset.card_image_of_injective _ hE.inj])
  have : i' ∈ (Finset.range s0.ts.length).image f := by rw [heq, Finset.mem_range, ← hlen]; exact hi'
  obtain ⟨i, hi, rfl⟩ := Finset.mem_image.mp this
  exact ⟨i, Finset.mem_range.mp hi, rfl⟩

/-- Two runs of the same transfers in another order end at the same clock. -/
theorem same_clock {n cpt : Nat} {f : Nat → Nat} (hon : ∀ i', i' < n → ∃ i, i < n ∧ f i = i')
    {fl : ℚ → ℚ} {job job' : Nat → Job} {speed speed' : Speed}
    (hA : ∀ k, Agree n f (run fl job cpt speed k) (run fl job' cpt speed' k))
    {s s' : Sim} {c c' : Nat} (h : EndsAs n cpt (run fl job cpt speed) (.finished s c))
    (h' : EndsAs n cpt (run fl job' cpt speed') (.finished s' c')) : c' ≤ c := by
  obtain ⟨l', k', a1, a2, a3, a4⟩ := h'
  obtain ⟨l, k, b1, b2, b3, b4⟩ := h
  have hk : k' ≤ k := by
    by_contra hcon
    refine a4 k b1 (by omega) fun i' hi' => ?_
    obtain ⟨i, hi, rfl⟩ := hon i' hi'
    have hg : s.ts[i]? = some (s.ts[i]'(by rw [l]; exact hi)) := List.getElem?_eq_getElem _
    exact ⟨_, _, by rw [hA k i hi]; exact b3 i _ hg⟩
  rw [a2, b2]
  exact Nat.mul_le_mul_right _ hk

/-- Two runs of the same transfers whose descriptions agree. -/
theorem same_run {n cpt : Nat} {fl : ℚ → ℚ} {job job' : Nat → Job} {speed speed' : Speed}
    (hA : ∀ k, Agree n id (run fl job cpt speed k) (run fl job' cpt speed' k))
    {e : Ending} {s' : Sim} {c' : Nat} (h : EndsAs n cpt (run fl job cpt speed) e)
    (hc : ∀ s c, e = .finished s c → c ≤ 50000000 + cpt)
    (h' : EndsAs n cpt (run fl job' cpt speed') (.finished s' c')) (hc' : c' ≤ 50000000 + cpt) :
    ∃ s, e = .finished s c' ∧ s.ts.map (fun t => (t.start, t.endc)) = s'.ts.map (fun t => (t.start, t.endc)) := by
  obtain ⟨s, c, rfl, hle, ht⟩ := same_times (fun _ hi => hi) hA h h' hc'
  obtain ⟨s2, c2, e2, hle2, _⟩ := same_times (f := id) (fun _ hi => hi) (fun k i hi => (hA k i hi).symm) h' h
    (hc _ _ rfl)
  have := (Ending.finished.inj e2).2
  have hcc : c = c' := by omega
  subst hcc
  refine ⟨s, rfl, List.ext_getElem? fun i => ?_⟩
  rw [List.getElem?_map, List.getElem?_map]
  by_cases hi : i < s.ts.length
  · obtain ⟨t', a1, a2, a3⟩ := ht i _ (List.getElem?_eq_getElem hi)
    rw [List.getElem?_eq_getElem hi]
    rw [a1]
    simp [a2, a3]
  · rw [List.getElem?_eq_none (by omega), List.getElem?_eq_none (by rw [h'.1, ← h.1]; omega)]

/-- No further transfers, no foreign users. -/
theorem private_id {dev : Device} {n : Nat} {job job' : Nat → Job} : Private dev n n id job job' :=
  ⟨fun i' hi' h => absurd rfl (h i' hi'), fun i' hi' h => absurd rfl (h i' hi'),
    fun i' hi' h => absurd rfl (h i' hi')⟩

end NPE
