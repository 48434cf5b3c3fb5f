import Verif.Proofs.Rates
import Mathlib.Algebra.Order.BigOperators.Group.List
import Mathlib.Algebra.BigOperators.Group.List.Basic

/-
Pointwise description of the rate computation: which bandwidth each live transfer gets, and which
value each entry of the demand grids has.
-/

namespace NPE

/-! ### Writing bandwidths -/

/-- Write the bandwidth that `g` computes for transfer `id`. -/
def setBw (g : TState → Out ℚ) (ts : List TState) (id : Nat) : Out (List TState) :=
  match ts[id]? with
  | none => .ub
  | some t => g t >>= fun b => .ok (ts.set id { t with bw := b })

/-- The bandwidth from the table, capped by the injection rate. -/
def tableBw (fp : FP) (dev : Device) (t : TState) : Out ℚ :=
  interpolateBW fp dev.tbt dev.maxBw t.params.packetSize t.params.numPackets >>= fun b =>
    .ok (min t.params.injectionRate b)

/-- The bandwidth after derating. -/
def deratedBw (fp : FP) (dev : Device) (g : Grids) (t : TState) : Out ℚ :=
  overallDerate fp dev g t >>= fun d => .ok (applyDerate fp dev t.bw d)

theorem updateBwOne_eq (fp : FP) (dev : Device) (ts : List TState) (id : Nat) :
    updateBwOne fp dev ts id = setBw (tableBw fp dev) ts id := by
  unfold updateBwOne setBw tableBw
  cases ts[id]? with
  | none => rfl
  | some t =>
    simp only
    cases (interpolateBW fp dev.tbt dev.maxBw t.params.packetSize t.params.numPackets) <;> rfl

theorem derateOne_eq (fp : FP) (dev : Device) (g : Grids) (ts : List TState) (id : Nat) :
    derateOne fp dev g ts id = setBw (deratedBw fp dev g) ts id := by
  unfold derateOne setBw deratedBw
  cases ts[id]? with
  | none => rfl
  | some t => simp only; cases overallDerate fp dev g t <;> rfl

/-- The result of writing bandwidths for the transfers of `live`. -/
def Written (g : TState → Out ℚ) (live : List Nat) (ts ts' : List TState) : Prop :=
  ts'.length = ts.length ∧ (∀ i ∉ live, ts'[i]? = ts[i]?) ∧
    ∀ i ∈ live, ∃ t b, ts[i]? = some t ∧ g t = .ok b ∧ ts'[i]? = some { t with bw := b }

theorem foldlM_setBw {g : TState → Out ℚ} : ∀ (live : List Nat) (ts ts' : List TState), live.Nodup →
    Out.foldlM (setBw g) ts live = .ok ts' → Written g live ts ts' := by
  intro live
  induction live with
  | nil =>
    intro ts ts' _ h
    rw [← Out.ok.inj h]
    exact ⟨rfl, fun _ _ => rfl, by simp⟩
  | cons id live ih =>
    intro ts ts' hn h
    rw [Out.foldlM_cons] at h
    obtain ⟨ts1, h1, h⟩ := Out.bind_eq_ok.mp h
    obtain ⟨hid, hn⟩ := List.nodup_cons.mp hn
    obtain ⟨hl, ho, hm⟩ := ih ts1 ts' hn h
    unfold setBw at h1
    cases ht : ts[id]? with
    | none => simp [ht] at h1
    | some t =>
      simp only [ht] at h1
      obtain ⟨b, hb, h1⟩ := Out.bind_eq_ok.mp h1
      have e1 := Out.ok.inj h1
      refine ⟨by rw [hl, ← e1, List.length_set], ?_, ?_⟩
      · intro i hi
        rw [List.mem_cons, not_or] at hi
        rw [ho i hi.2, ← e1, List.getElem?_set_ne (Ne.symm hi.1)]
      · intro i hi
        rcases List.mem_cons.mp hi with rfl | hi
        · refine ⟨t, b, ht, hb, ?_⟩
          rw [ho _ hid, ← e1, List.getElem?_set_self (List.getElem?_eq_some_iff.mp ht).1]
        · obtain ⟨t', b', h1', h2', h3'⟩ := hm i hi
          refine ⟨t', b', ?_, h2', h3'⟩
          rw [← h1', ← e1, List.getElem?_set_ne]
          rintro rfl; exact hid hi

theorem foldlM_setBw_ok {g : TState → Out ℚ} : ∀ (live : List Nat) (ts : List TState), live.Nodup →
    (∀ i ∈ live, ∃ t b, ts[i]? = some t ∧ g t = .ok b) →
    ∃ ts', Out.foldlM (setBw g) ts live = .ok ts' := by
  intro live
  induction live with
  | nil => intro ts _ _; exact ⟨ts, rfl⟩
  | cons id live ih =>
    intro ts hn h
    obtain ⟨hid, hn⟩ := List.nodup_cons.mp hn
    obtain ⟨t, b, ht, hb⟩ := h id (by simp)
    have e : setBw g ts id = .ok (ts.set id { t with bw := b }) := by
      unfold setBw; simp only [ht, hb]; rfl
    rw [Out.foldlM_cons, e]
    refine ih _ hn ?_
    intro i hi
    obtain ⟨t', b', h1, h2⟩ := h i (List.mem_cons_of_mem _ hi)
    refine ⟨t', b', ?_, h2⟩
    rw [List.getElem?_set_ne, h1]
    rintro rfl; exact hid hi

theorem Written.ext {g : TState → Out ℚ} {live live' : List Nat} {ts ts1 ts2 : List TState}
    (hl : ∀ i, i ∈ live ↔ i ∈ live') (h1 : Written g live ts ts1) (h2 : Written g live' ts ts2) :
    ts1 = ts2 := by
  refine List.ext_getElem? fun i => ?_
  by_cases hi : i ∈ live
  · obtain ⟨t, b, a1, a2, a3⟩ := h1.2.2 i hi
    obtain ⟨t', b', b1, b2, b3⟩ := h2.2.2 i ((hl i).mp hi)
    rw [a1] at b1
    have e := Option.some.inj b1
    subst e
    rw [a2] at b2
    rw [a3, b3, Out.ok.inj b2]
  · rw [h1.2.1 i hi, h2.2.1 i (fun h => hi ((hl i).mpr h))]

theorem updateTransferBandwidth_written {fp : FP} {dev : Device} {live : List Nat}
    {ts ts' : List TState} (hn : live.Nodup)
    (h : updateTransferBandwidth fp dev ts live = .ok ts') : Written (tableBw fp dev) live ts ts' := by
  unfold updateTransferBandwidth at h
  have e : updateBwOne fp dev = setBw (tableBw fp dev) := by
    funext a b; exact updateBwOne_eq fp dev a b
  rw [e] at h
  exact foldlM_setBw live ts ts' hn h

/-! ### Demand grids -/

/-- Accumulation of contributions to one entry of a grid, in `float`. -/
def accum (fp : FP) (es : List ℚ) (y : ℚ) : ℚ := es.foldl (fun y e => fp.f32.fl (y + e)) y

theorem accum_append (fp : FP) (a b : List ℚ) (y : ℚ) :
    accum fp (a ++ b) y = accum fp b (accum fp a y) := by
  unfold accum; rw [List.foldl_append]

@[simp] theorem accum_nil (fp : FP) (y : ℚ) : accum fp [] y = y := rfl

theorem addAt_ok {fp : FP} {x : ℚ} {g g' : List ℚ} {id : Int} (h : addAt fp x g id = .ok g') :
    0 ≤ id ∧ id < g.length ∧ g'.length = g.length ∧
      ∀ k : Nat, g'[k]? = (g[k]?).map (accum fp (if id = k then [x] else [])) := by
  unfold addAt at h
  split at h
  · simp at h
  rename_i h0
  cases hy : g[id.toNat]? with
  | none => simp [hy] at h
  | some y =>
    simp only [hy] at h
    have hlt := (List.getElem?_eq_some_iff.mp hy).1
    rw [← Out.ok.inj h]
    refine ⟨by omega, by omega, by simp, ?_⟩
    intro k
    by_cases hk : id = k
    · subst hk
      simp only [Int.toNat_natCast] at hy hlt ⊢
      rw [List.getElem?_set_self hlt, hy]
      simp [accum]
    · rw [List.getElem?_set_ne (by omega), if_neg hk]
      cases g[k]? <;> simp

theorem addAt_of_lt {fp : FP} {x : ℚ} {g : List ℚ} {id : Int} (h0 : 0 ≤ id) (h1 : id < g.length) :
    ∃ g', addAt fp x g id = .ok g' := by
  unfold addAt
  rw [if_neg (by omega), List.getElem?_eq_getElem (by omega)]
  exact ⟨_, rfl⟩

/-- Result of adding `x` at every position of `ids`. -/
theorem foldlM_addAt {fp : FP} {x : ℚ} : ∀ (ids : List Int) (g g' : List ℚ),
    Out.foldlM (addAt fp x) g ids = .ok g' →
    (∀ i ∈ ids, 0 ≤ i ∧ i < g.length) ∧ g'.length = g.length ∧
      ∀ k : Nat, g'[k]? = (g[k]?).map (accum fp (List.replicate (ids.count (k : Int)) x)) := by
  intro ids
  induction ids with
  | nil =>
    intro g g' h
    rw [← Out.ok.inj h]
    refine ⟨by simp, rfl, fun k => ?_⟩
    cases g[k]? <;> simp
  | cons id ids ih =>
    intro g g' h
    rw [Out.foldlM_cons] at h
    obtain ⟨g1, h1, h⟩ := Out.bind_eq_ok.mp h
    obtain ⟨a1, a2, a3, a4⟩ := addAt_ok h1
    obtain ⟨b1, b2, b3⟩ := ih g1 g' h
    refine ⟨?_, by omega, ?_⟩
    · intro i hi
      rcases List.mem_cons.mp hi with rfl | hi
      · exact ⟨a1, a2⟩
      · have := b1 i hi; omega
    · intro k
      rw [b3 k, a4 k]
      cases g[k]? with
      | none => rfl
      | some y =>
        simp only [Option.map_some, Option.some.injEq]
        rw [← accum_append, List.count_cons]
        by_cases hk : id = k
        · subst hk; simp [List.replicate_succ]
        · simp [hk]

theorem foldlM_addAt_ok {fp : FP} {x : ℚ} : ∀ (ids : List Int) (g : List ℚ),
    (∀ i ∈ ids, 0 ≤ i ∧ i < g.length) → ∃ g', Out.foldlM (addAt fp x) g ids = .ok g' := by
  intro ids
  induction ids with
  | nil => intro g _; exact ⟨g, rfl⟩
  | cons id ids ih =>
    intro g h
    obtain ⟨g1, h1⟩ := addAt_of_lt (fp := fp) (x := x) (h id (by simp)).1 (h id (by simp)).2
    rw [Out.foldlM_cons, h1]
    refine ih g1 fun i hi => ?_
    rw [(addAt_ok h1).2.2.1]
    exact h i (List.mem_cons_of_mem _ hi)

/-- The network interfaces that a transfer loads: its source and its sinks. -/
def loads (dev : Device) (t : Transfer) : Out (List Int) :=
  dev.niuAt t.src (srcNiu t.noc) >>= fun s => sinkIds dev t >>= fun l => .ok (s :: l)

/-- The links whose multicast demand a transfer raises. -/
def mcastRoute (t : TState) : List Int :=
  if t.params.eventType = "WRITE_MULTICAST" then t.route else []

/-- Contributions of one transfer to an entry. -/
def linkC (fp : FP) (sot curr : Nat) (k : Nat) (t : TState) : List ℚ :=
  List.replicate (t.route.count (k : Int)) (effectiveDemand fp sot curr t)
def mcastC (fp : FP) (sot curr : Nat) (k : Nat) (t : TState) : List ℚ :=
  List.replicate ((mcastRoute t).count (k : Int)) (effectiveDemand fp sot curr t)
def niuC (fp : FP) (dev : Device) (sot curr : Nat) (k : Nat) (t : TState) : List ℚ :=
  List.replicate (((loads dev t.params).getD []).count (k : Int)) (effectiveDemand fp sot curr t)

/-- All contributions, in the order of the live transfers. -/
def contrib (c : TState → List ℚ) (ts : List TState) (live : List Nat) : List ℚ :=
  live.flatMap fun i => match ts[i]? with | some t => c t | none => []

theorem contrib_cons (c : TState → List ℚ) (ts : List TState) (i : Nat) (live : List Nat) :
    contrib c ts (i :: live) = (match ts[i]? with | some t => c t | none => []) ++ contrib c ts live :=
  List.flatMap_cons

theorem contrib_append (c : TState → List ℚ) (ts : List TState) (a b : List Nat) :
    contrib c ts (a ++ b) = contrib c ts a ++ contrib c ts b := by
  unfold contrib; rw [List.flatMap_append]

/-- The transfer's loads are in range. -/
def InRange (dev : Device) (g : Grids) (t : TState) : Prop :=
  (∃ l, loads dev t.params = .ok l ∧ ∀ i ∈ l, 0 ≤ i ∧ i < g.niu.length) ∧
  (∀ i ∈ t.route, 0 ≤ i ∧ i < g.link.length) ∧ ∀ i ∈ mcastRoute t, 0 ≤ i ∧ i < g.mcast.length

theorem demandOne_ok {fp : FP} {dev : Device} {sot curr : Nat} {ts : List TState} {g g' : Grids}
    {id : Nat} (h : demandOne fp dev sot curr ts g id = .ok g') :
    ∃ t, ts[id]? = some t ∧ InRange dev g t ∧
      g'.niu.length = g.niu.length ∧ g'.link.length = g.link.length ∧
      g'.mcast.length = g.mcast.length ∧
      (∀ k : Nat, g'.niu[k]? = (g.niu[k]?).map (accum fp (niuC fp dev sot curr k t))) ∧
      (∀ k : Nat, g'.link[k]? = (g.link[k]?).map (accum fp (linkC fp sot curr k t))) ∧
      ∀ k : Nat, g'.mcast[k]? = (g.mcast[k]?).map (accum fp (mcastC fp sot curr k t)) := by
  unfold demandOne at h
  cases ht : ts[id]? with
  | none => simp [ht] at h
  | some t =>
    simp only [ht] at h
    obtain ⟨src, hsrc, h⟩ := Out.bind_eq_ok.mp h
    obtain ⟨niu1, hn1, h⟩ := Out.bind_eq_ok.mp h
    obtain ⟨sinks, hsk, h⟩ := Out.bind_eq_ok.mp h
    obtain ⟨niu2, hn2, h⟩ := Out.bind_eq_ok.mp h
    obtain ⟨link, hlk, h⟩ := Out.bind_eq_ok.mp h
    have hmcx : ∃ mc, Out.foldlM (addAt fp (effectiveDemand fp sot curr t)) g.mcast (mcastRoute t)
        = .ok mc ∧ g' = { niu := niu2, link := link, mcast := mc } := by
      unfold mcastRoute
      split at h
      · obtain ⟨mc, hmc, h⟩ := Out.bind_eq_ok.mp h
        rw [if_pos (by assumption)]; exact ⟨mc, hmc, (Out.ok.inj h).symm⟩
      · rw [if_neg (by assumption)]; exact ⟨g.mcast, rfl, (Out.ok.inj h).symm⟩
    obtain ⟨mc, hmc', rfl⟩ := hmcx
    have hniu : Out.foldlM (addAt fp (effectiveDemand fp sot curr t)) g.niu (src :: sinks) = .ok niu2 := by
      rw [Out.foldlM_cons, hn1]; exact hn2
    have hload : loads dev t.params = .ok (src :: sinks) := by
      unfold loads; rw [hsrc, Out.bind_ok, hsk]; rfl
    obtain ⟨n1, n2, n3⟩ := foldlM_addAt _ _ _ hniu
    obtain ⟨l1, l2, l3⟩ := foldlM_addAt _ _ _ hlk
    obtain ⟨m1, m2, m3⟩ := foldlM_addAt _ _ _ hmc'
    refine ⟨t, rfl, ⟨⟨_, hload, n1⟩, l1, m1⟩, n2, l2, m2, ?_, l3, m3⟩
    intro k
    unfold niuC
    rw [hload]
    exact n3 k

theorem demandOne_of {fp : FP} {dev : Device} {sot curr : Nat} {ts : List TState} {g : Grids}
    {id : Nat} {t : TState} (ht : ts[id]? = some t) (hr : InRange dev g t) :
    ∃ g', demandOne fp dev sot curr ts g id = .ok g' := by
  obtain ⟨⟨l, hl, hn⟩, hlk, hmc⟩ := hr
  unfold loads at hl
  obtain ⟨src, hsrc, hl⟩ := Out.bind_eq_ok.mp hl
  obtain ⟨sinks, hsk, hl⟩ := Out.bind_eq_ok.mp hl
  have e := Out.ok.inj hl
  subst e
  obtain ⟨niu1, hn1⟩ := addAt_of_lt (fp := fp) (x := effectiveDemand fp sot curr t)
    (hn src (by simp)).1 (hn src (by simp)).2
  obtain ⟨niu2, hn2⟩ := foldlM_addAt_ok (fp := fp) (x := effectiveDemand fp sot curr t) sinks niu1
    (by intro i hi; rw [(addAt_ok hn1).2.2.1]; exact hn i (List.mem_cons_of_mem _ hi))
  obtain ⟨link, hlk⟩ := foldlM_addAt_ok (fp := fp) (x := effectiveDemand fp sot curr t) _ _ hlk
  obtain ⟨mc, hmc⟩ := foldlM_addAt_ok (fp := fp) (x := effectiveDemand fp sot curr t) _ _ hmc
  unfold demandOne
  simp only [ht, hsrc, hn1, hsk, hn2, hlk, Out.bind_ok]
  unfold mcastRoute at hmc
  split at hmc
  · rw [if_pos (by assumption), hmc]; exact ⟨_, rfl⟩
  · rw [if_neg (by assumption)]; exact ⟨_, rfl⟩

theorem InRange.congr {dev : Device} {g g' : Grids} {t : TState} (h1 : g'.niu.length = g.niu.length)
    (h2 : g'.link.length = g.link.length) (h3 : g'.mcast.length = g.mcast.length)
    (h : InRange dev g t) : InRange dev g' t := by
  obtain ⟨⟨l, hl, hn⟩, hlk, hmc⟩ := h
  exact ⟨⟨l, hl, by rw [h1]; exact hn⟩, by rw [h2]; exact hlk, by rw [h3]; exact hmc⟩

/-- The grids that hold the contributions of the live transfers. -/
def Accumulated (fp : FP) (dev : Device) (sot curr : Nat) (ts : List TState) (live : List Nat)
    (g g' : Grids) : Prop :=
  g'.niu.length = g.niu.length ∧ g'.link.length = g.link.length ∧
  g'.mcast.length = g.mcast.length ∧
  (∀ k : Nat, g'.niu[k]? = (g.niu[k]?).map (accum fp (contrib (niuC fp dev sot curr k) ts live))) ∧
  (∀ k : Nat, g'.link[k]? = (g.link[k]?).map (accum fp (contrib (linkC fp sot curr k) ts live))) ∧
  ∀ k : Nat, g'.mcast[k]? = (g.mcast[k]?).map (accum fp (contrib (mcastC fp sot curr k) ts live))

theorem foldlM_demand {fp : FP} {dev : Device} {sot curr : Nat} {ts : List TState} :
    ∀ (live : List Nat) (g g' : Grids), Out.foldlM (demandOne fp dev sot curr ts) g live = .ok g' →
      (∀ i ∈ live, ∃ t, ts[i]? = some t ∧ InRange dev g t) ∧
      Accumulated fp dev sot curr ts live g g' := by
  intro live
  induction live with
  | nil =>
    intro g g' h
    rw [← Out.ok.inj h]
    refine ⟨by simp, rfl, rfl, rfl, ?_, ?_, ?_⟩ <;> intro k
    · cases g.niu[k]? <;> simp [contrib]
    · cases g.link[k]? <;> simp [contrib]
    · cases g.mcast[k]? <;> simp [contrib]
  | cons i live ih =>
    intro g g' h
    rw [Out.foldlM_cons] at h
    obtain ⟨g1, h1, h⟩ := Out.bind_eq_ok.mp h
    obtain ⟨t, ht, hr, a1, a2, a3, a4, a5, a6⟩ := demandOne_ok h1
    obtain ⟨hall, b1, b2, b3, b4, b5, b6⟩ := ih g1 g' h
    refine ⟨?_, by omega, by omega, by omega, ?_, ?_, ?_⟩
    · intro j hj
      rcases List.mem_cons.mp hj with rfl | hj
      · exact ⟨t, ht, hr⟩
      · obtain ⟨u, hu, hru⟩ := hall j hj
        exact ⟨u, hu, hru.congr a1.symm a2.symm a3.symm⟩
    · intro k
      rw [b4, a4, contrib_cons, ht, Option.map_map]
      congr 1; funext y; simp only [Function.comp, accum_append]
    · intro k
      rw [b5, a5, contrib_cons, ht, Option.map_map]
      congr 1; funext y; simp only [Function.comp, accum_append]
    · intro k
      rw [b6, a6, contrib_cons, ht, Option.map_map]
      congr 1; funext y; simp only [Function.comp, accum_append]

theorem foldlM_demand_ok {fp : FP} {dev : Device} {sot curr : Nat} {ts : List TState} :
    ∀ (live : List Nat) (g : Grids), (∀ i ∈ live, ∃ t, ts[i]? = some t ∧ InRange dev g t) →
      ∃ g', Out.foldlM (demandOne fp dev sot curr ts) g live = .ok g' := by
  intro live
  induction live with
  | nil => intro g _; exact ⟨g, rfl⟩
  | cons i live ih =>
    intro g h
    obtain ⟨t, ht, hr⟩ := h i (by simp)
    obtain ⟨g1, h1⟩ := demandOne_of (fp := fp) (sot := sot) (curr := curr) ht hr
    rw [Out.foldlM_cons, h1]
    obtain ⟨t', ht', _, a1, a2, a3, _⟩ := demandOne_ok h1
    refine ih g1 fun j hj => ?_
    obtain ⟨u, hu, hru⟩ := h j (List.mem_cons_of_mem _ hj)
    exact ⟨u, hu, hru.congr a1 a2 a3⟩

theorem initGrids_niu (dev : Device) (k : Nat) :
    (initGrids dev).niu[k]? = if k < dev.niuTable.length then some 0 else none := by
  simp [initGrids, List.getElem?_replicate]

theorem initGrids_link (dev : Device) (k : Nat) :
    (initGrids dev).link[k]? = if k < dev.linkTable.length then some 0 else none := by
  simp [initGrids, List.getElem?_replicate]

theorem initGrids_mcast (dev : Device) (k : Nat) :
    (initGrids dev).mcast[k]? = if k < dev.linkTable.length then some 0 else none := by
  simp [initGrids, List.getElem?_replicate]

/-! ### Derating -/

theorem readAt_ok {g : List ℚ} {i : Int} {x : ℚ} :
    readAt g i = .ok x ↔ 0 ≤ i ∧ g[i.toNat]? = some x := by
  unfold readAt
  split
  · simp; omega
  · cases g[i.toNat]? <;> simp_all

theorem readAt_congr {g g' : List ℚ} {i : Int} (h : g'[i.toNat]? = g[i.toNat]?) :
    readAt g' i = readAt g i := by
  unfold readAt; rw [h]

theorem foldlM_congr' {α σ : Type} {f f' : σ → α → Out σ} : ∀ (l : List α) (s : σ),
    (∀ a ∈ l, ∀ s, f' s a = f s a) → Out.foldlM f' s l = Out.foldlM f s l := by
  intro l
  induction l with
  | nil => intro s _; rfl
  | cons a l ih =>
    intro s h
    rw [Out.foldlM_cons, Out.foldlM_cons, h a (by simp) s]
    congr 1; funext s'
    exact ih s' fun b hb => h b (List.mem_cons_of_mem _ hb)

/-- The factor of a transfer depends only on the entries of its own links and interfaces. -/
theorem overallDerate_congr {fp : FP} {dev : Device} {g g' : Grids} {t : TState} {L : List Int}
    (hL : loads dev t.params = .ok L) (hl : ∀ i ∈ t.route, g'.link[i.toNat]? = g.link[i.toNat]?)
    (hn : ∀ i ∈ L, g'.niu[i.toNat]? = g.niu[i.toNat]?) :
    overallDerate fp dev g' t = overallDerate fp dev g t := by
  unfold loads at hL
  obtain ⟨src, hsrc, hL⟩ := Out.bind_eq_ok.mp hL
  obtain ⟨sinks, hsk, hL⟩ := Out.bind_eq_ok.mp hL
  have e := Out.ok.inj hL
  subst e
  have e1 : maxLinkDemand g' t.route = maxLinkDemand g t.route := by
    unfold maxLinkDemand
    exact foldlM_congr' _ _ fun i hi s => by rw [readAt_congr (hl i hi)]
  have e2 : readAt g'.niu src = readAt g.niu src := readAt_congr (hn src (by simp))
  have e3 : sinkDerate fp dev g' t.params = sinkDerate fp dev g t.params := by
    unfold sinkDerate
    unfold sinkIds at hsk
    cases hd : t.params.dst with
    | unicast d =>
      rw [hd] at hsk
      simp only at hsk ⊢
      obtain ⟨i, hi, hsk⟩ := Out.bind_eq_ok.mp hsk
      have e := Out.ok.inj hsk
      subst e
      rw [hi]
      simp only [Out.bind_ok]
      rw [readAt_congr (hn i (by simp))]
    | mcast gs =>
      simp only
      have hsk' : sinkIds dev t.params = .ok sinks := by unfold sinkIds; exact hsk
      rw [hsk']
      simp only [Out.bind_ok]
      rw [foldlM_congr' (f := fun (m : ℚ) i => readAt g.niu i >>= fun x => .ok (min m x)) sinks 0]
      intro i hi s
      rw [readAt_congr (hn i (List.mem_cons_of_mem _ hi))]
  unfold overallDerate
  rw [e1, hsrc]
  simp only [Out.bind_ok]
  rw [e2, e3]

/-- Everything about a successful run of the congestion model. -/
theorem modelCongestion_parts {fp : FP} {dev : Device} {sot curr : Nat} {ts ts' : List TState}
    {live : List Nat} {g : Grids} (hn : live.Nodup)
    (h : modelCongestion fp dev sot curr ts live = .ok (ts', g)) :
    (∀ i ∈ live, ∃ t, ts[i]? = some t ∧ InRange dev (initGrids dev) t) ∧
    Accumulated fp dev sot curr ts live (initGrids dev) g ∧ Written (deratedBw fp dev g) live ts ts' := by
  unfold modelCongestion at h
  obtain ⟨g1, h1, h⟩ := Out.bind_eq_ok.mp h
  obtain ⟨ts1, h2, h⟩ := Out.bind_eq_ok.mp h
  simp only [Out.pure_eq, Out.ok.injEq, Prod.mk.injEq] at h
  obtain ⟨rfl, rfl⟩ := h
  obtain ⟨a, b⟩ := foldlM_demand _ _ _ h1
  refine ⟨a, b, ?_⟩
  have e : derateOne fp dev g1 = setBw (deratedBw fp dev g1) := by
    funext x y; exact derateOne_eq fp dev g1 x y
  rw [e] at h2
  exact foldlM_setBw _ _ _ hn h2

theorem modelCongestion_of {fp : FP} {dev : Device} {sot curr : Nat} {ts : List TState}
    {live : List Nat} (hn : live.Nodup)
    (h1 : ∀ i ∈ live, ∃ t, ts[i]? = some t ∧ InRange dev (initGrids dev) t)
    (h2 : ∀ g, Accumulated fp dev sot curr ts live (initGrids dev) g → ∀ i ∈ live, ∀ t,
      ts[i]? = some t → ∃ b, deratedBw fp dev g t = .ok b) :
    ∃ ts' g, modelCongestion fp dev sot curr ts live = .ok (ts', g) := by
  obtain ⟨g, hg⟩ := foldlM_demand_ok (fp := fp) (sot := sot) (curr := curr) live _ h1
  have ha := (foldlM_demand _ _ _ hg).2
  have e : derateOne fp dev g = setBw (deratedBw fp dev g) := by
    funext x y; exact derateOne_eq fp dev g x y
  obtain ⟨ts', ht⟩ := foldlM_setBw_ok (g := deratedBw fp dev g) live ts hn (by
    intro i hi
    obtain ⟨t, ht, _⟩ := h1 i hi
    obtain ⟨b, hb⟩ := h2 g ha i hi t ht
    exact ⟨t, b, ht, hb⟩)
  refine ⟨ts', g, ?_⟩
  unfold modelCongestion demands
  rw [hg, Out.bind_ok, e, ht]
  rfl

end NPE
