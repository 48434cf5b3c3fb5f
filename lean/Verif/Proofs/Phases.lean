import Verif.Proofs.OrderOutput

/-
Simulations of transfers that differ in the phase they belong to.
-/

namespace NPE
open NPE.Spec

/-- A transfer without its phase and, unless `k` says that they are kept, without its labels: the zone, and the event
type apart from whether it is a multicast write. -/
def noPhase (k : Bool) (t : Transfer) : Transfer :=
  { t with
    phaseId := 0
    eventType := if k || decide (t.eventType = "WRITE_MULTICAST") then t.eventType else ""
    zonePath := if k then t.zonePath else "" }

/-- The second transfer differs from the first one in these fields only. -/
def Relabelled (k : Bool) (t t' : Transfer) : Prop :=
  ∃ p e z, t' = { t with phaseId := p, eventType := e, zonePath := z } ∧ noPhase k t' = noPhase k t

theorem noPhase_eq {k : Bool} {t t' : Transfer} (h : noPhase k t' = noPhase k t) : Relabelled k t t' := by
  refine ⟨t'.phaseId, t'.eventType, t'.zonePath, ?_, h⟩
  cases t
  cases t'
  simp only [noPhase, Transfer.mk.injEq] at h
  simp only [Transfer.mk.injEq]
  simp_all

theorem noPhase_twice {k : Bool} (t : Transfer) : noPhase k (noPhase k t) = noPhase k t := by
  cases k
  · by_cases h : t.eventType = "WRITE_MULTICAST" <;> simp [noPhase, h]
  · simp [noPhase]

/-- Multicast writes remain what they are. -/
theorem noPhase_write {k : Bool} {t t' : Transfer} (h : noPhase k t' = noPhase k t) :
    (t'.eventType = "WRITE_MULTICAST") = (t.eventType = "WRITE_MULTICAST") := by
  have h := congrArg Transfer.eventType h
  simp only [noPhase] at h
  apply propext
  by_cases h1 : t.eventType = "WRITE_MULTICAST" <;> by_cases h2 : t'.eventType = "WRITE_MULTICAST"
  · simp [h1, h2]
  · exfalso
    cases k
    · simp [h1, h2] at h
    · simp [h1] at h; exact h2 h
  · exfalso
    cases k
    · simp [h1, h2] at h
    · simp [h2] at h; exact h1 h.symm
  · simp [h1, h2]

/-- The state of a transfer without its phase. -/
def bare (k : Bool) (t : TState) : TState := { t with params := noPhase k t.params }

/-- The same transfers, apart from phases. -/
def SameBare (k : Bool) (ts ts' : List TState) : Prop := ts'.map (bare k) = ts.map (bare k)

theorem bare_eq {k : Bool} {t t' : TState} (h : bare k t' = bare k t) :
    t' = { t with params := t'.params } ∧ Relabelled k t.params t'.params := by
  obtain ⟨a1, a2, a3, a4, a5, a6, a7, a8⟩ := t
  obtain ⟨b1, b2, b3, b4, b5, b6, b7, b8⟩ := t'
  simp only [bare, TState.mk.injEq] at h
  refine ⟨by simp [h], noPhase_eq h.1⟩

namespace SameBare
variable {k : Bool} {ts ts' : List TState}

theorem none (h : SameBare k ts ts') {i : Nat} (hi : ts[i]? = none) : ts'[i]? = none := by
  have := congrArg (fun l => l[i]?) h
  simp only [List.getElem?_map, hi, Option.map_none, Option.map_eq_none_iff] at this
  exact this

theorem some (h : SameBare k ts ts') {i : Nat} {t : TState} (hi : ts[i]? = some t) :
    ∃ p, ts'[i]? = some { t with params := p } ∧ Relabelled k t.params p := by
  have e := congrArg (fun l => l[i]?) h
  simp only [List.getElem?_map, hi, Option.map_some] at e
  cases h' : ts'[i]? with
  | none => rw [h'] at e; cases e
  | some t' =>
    rw [h'] at e
    simp only [Option.map_some, Option.some.injEq] at e
    exact ⟨_, congrArg _ (bare_eq e).1, (bare_eq e).2⟩

theorem set (h : SameBare k ts ts') (i : Nat) {u u' : TState} (hu : bare k u' = bare k u) :
    SameBare k (ts.set i u) (ts'.set i u') := by
  unfold SameBare
  rw [List.map_set, List.map_set, hu]
  exact congrArg (fun l => l.set i (bare k u)) h

theorem length (h : SameBare k ts ts') : ts'.length = ts.length := by
  simpa using congrArg List.length h

end SameBare

section
variable {k : Bool} {fp : FP} {dev : Device} {ts ts' : List TState}

theorem bare_updateBw (h : SameBare k ts ts') (id : Nat) :
    Concur (SameBare k) (updateBwOne fp dev ts id) (updateBwOne fp dev ts' id) := by
  unfold updateBwOne
  cases hi : ts[id]? with
  | none => rw [h.none hi]; exact .ub
  | some t =>
    obtain ⟨_, h1, pp, ep, zp, rfl, kp⟩ := h.some hi
    rw [h1]
    exact .same _ fun b _ => .ok (h.set id (by simp only [bare, kp]))

theorem bare_demand (h : SameBare k ts ts') (sot curr : Nat) (g : Grids) (id : Nat) :
    demandOne fp dev sot curr ts' g id = demandOne fp dev sot curr ts g id := by
  unfold demandOne
  cases hi : ts[id]? with
  | none => rw [h.none hi]
  | some t =>
    obtain ⟨_, h1, pp, ep, zp, rfl, kp⟩ := h.some hi
    rw [h1]
    simp only [noPhase_write kp]
    rfl

theorem bare_demands (h : SameBare k ts ts') (sot curr : Nat) (live : List Nat) :
    demands fp dev sot curr ts' live = demands fp dev sot curr ts live := by
  unfold demands
  congr 1
  funext g id
  exact bare_demand h sot curr g id

theorem bare_derate (h : SameBare k ts ts') (g : Grids) (id : Nat) :
    Concur (SameBare k) (derateOne fp dev g ts id) (derateOne fp dev g ts' id) := by
  unfold derateOne
  cases hi : ts[id]? with
  | none => rw [h.none hi]; exact .ub
  | some t =>
    obtain ⟨_, h1, pp, ep, zp, rfl, kp⟩ := h.some hi
    rw [h1]
    exact .same (overallDerate fp dev g t) fun b _ => .ok (h.set id (by simp only [bare, kp]))

/-- Rates. -/
theorem bare_rates (h : SameBare k ts ts') (en : Bool) (sot curr : Nat) (g : Grids) (live : List Nat) :
    Concur (fun p p' => SameBare k p.1 p'.1 ∧ p.2 = p'.2) (computeRates fp dev en sot curr g ts live)
      (computeRates fp dev en sot curr g ts' live) := by
  unfold computeRates updateTransferBandwidth
  refine (Concur.foldlM (R := SameBare k) (fun a b e hab => bare_updateBw hab e) live ts ts' h).bind fun a b hab => ?_
  cases en with
  | false => exact .ok ⟨hab, rfl⟩
  | true =>
    simp only [if_true]
    unfold modelCongestion
    rw [bare_demands hab]
    refine .same _ fun g' _ => ?_
    refine (Concur.foldlM (R := SameBare k) (fun a b e hab => bare_derate hab g' e) live a b hab).bind fun c d hcd => ?_
    exact .ok ⟨hcd, rfl⟩

/-! ### One timestep -/

/-- Scans that differ in phases only. -/
structure ScanBare (k : Bool) (s s' : Scan) : Prop where
  ts : SameBare k s.ts s'.ts
  queue : s'.queue = s.queue
  live : s'.live = s.live
  activated : s'.activated = s.activated

theorem scan_bare (tk : Tracker) (curr : Nat) : ∀ (m : Nat) (s s' : Scan), ScanBare k s s' →
    Concur (ScanBare k) (scanGo tk curr m s) (scanGo tk curr m s') := by
  intro m
  induction m with
  | zero => intro s s' h; exact .ok h
  | succ i ih =>
    intro s s' h
    unfold scanGo
    rw [h.queue]
    cases hq : s.queue[i]? with
    | none => exact .ub
    | some q =>
      simp only
      by_cases hc : q.1 ≤ curr
      · rw [if_pos hc, if_pos hc]
        cases ht : s.ts[q.2]? with
        | none => rw [h.ts.none ht]; exact .ub
        | some t =>
          obtain ⟨_, h1, pp, ep, zp, rfl, kp⟩ := h.ts.some ht
          rw [h1, h.activated, h.live]
          refine .same (Tracker.done tk t.dependsOn curr) fun dn _ => ?_
          cases dn with
          | false => exact ih s s' h
          | true =>
            simp only [if_true]
            exact .same (startAfterDep tk t) fun st _ => .same _ fun qu _ => ih _ _ ⟨h.ts.set _ (by simp only [bare, kp]), rfl, rfl, rfl⟩
      · rw [if_neg hc, if_neg hc]; exact .ok h

/-- Simulations that differ in phases only. -/
structure SimBare (k : Bool) (s s' : Sim) : Prop where
  ts : SameBare k s.ts s'.ts
  deps : s'.deps = s.deps
  queue : s'.queue = s.queue
  live : s'.live = s.live
  grids : s'.grids = s.grids
  stats : s'.stats = s.stats

theorem activate_bare {s s' : Sim} (h : SimBare k s s') (curr : Nat) :
    Concur (SimBare k) (activate curr s) (activate curr s') := by
  unfold activate
  rw [h.queue, h.live, h.deps]
  refine (scan_bare s.deps curr _ ⟨s.ts, s.queue, s.live, 0⟩ ⟨s'.ts, s.queue, s.live, 0⟩ ⟨h.ts, rfl, rfl, rfl⟩).bind
    fun a b hab => .ok ?_
  refine ⟨hab.ts, rfl, ?_, hab.live, h.grids, h.stats⟩
  simp only [hab.queue, hab.activated]

/-- States of the update loop that differ in phases only. -/
structure UpdBare (k : Bool) (u u' : Upd) : Prop where
  ts : SameBare k u.ts u'.ts
  deps : u'.deps = u.deps
  stats : u'.stats = u.stats

theorem updateOne_bare (cfg : SimCfg) (curr sot : Nat) {u u' : Upd} (h : UpdBare k u u') (id : Nat) :
    Concur (UpdBare k) (updateOne cfg curr sot u id) (updateOne cfg curr sot u' id) := by
  unfold updateOne
  cases ht : u.ts[id]? with
  | none => rw [h.ts.none ht]; exact .ub
  | some t =>
    obtain ⟨_, h1, pp, ep, zp, rfl, kp⟩ := h.ts.some ht
    rw [h1, h.deps]
    refine .same (Tracker.done u.deps t.dependsOn curr) fun dn _ => .same _ fun _ _ =>
      .same (cyclesActive cfg.cpt curr sot t u.deps) fun c _ =>
      .same (toSize (cfg.fp.f32.fl (cfg.fp.f32.fl c * t.bw))) fun mb _ => ?_
    simp only
    split
    · unfold completeOne
      refine .same (transferEnd cfg.fp sot { t with moved := t.moved + min (t.params.totalBytes - t.moved) mb } _) fun e _ => ?_
      rw [h.deps]
      refine .same (Out.foldlM (fun tk c => Tracker.update tk c (e % 4294967296)) u.deps t.requiredBy) fun tk _ => ?_
      refine .same (cfg.golden.at t.params.src.dev) fun g _ => .same (cfg.golden.at MESH_DEVICE) fun gm _ => .ok ⟨?_, rfl, ?_⟩
      · exact h.ts.set id (by simp only [bare, kp])
      · simp only [h.stats]
    · exact .ok ⟨h.ts.set id (by simp only [bare, kp]), rfl, h.stats⟩

/-- Rate computations that do not look at phases. -/
def RatesBare (k : Bool) (r : Rates) : Prop := ∀ ts ts', SameBare k ts ts' → ∀ sot curr g live,
  Concur (fun p p' => SameBare k p.1 p'.1 ∧ p.2 = p'.2) (r sot curr g ts live) (r sot curr g ts' live)

theorem step_bare {cfg : SimCfg} (hr : RatesBare k cfg.rates) (curr : Nat) {s s' : Sim} (h : SimBare k s s') :
    Concur (SimBare k) (stepSim cfg curr s) (stepSim cfg curr s') := by
  unfold stepSim
  simp only
  rw [h.stats]
  refine .same _ fun st _ => ?_
  refine (activate_bare (s := { s with stats := st }) (s' := { s' with stats := st })
    ⟨h.ts, h.deps, h.queue, h.live, h.grids, rfl⟩ curr).bind fun a b hab => ?_
  rw [hab.grids, hab.live]
  refine (hr _ _ hab.ts _ _ _ _).bind fun p p' hp => ?_
  obtain ⟨ts1, g1⟩ := p
  obtain ⟨ts1', g1'⟩ := p'
  obtain ⟨hp1, hp2⟩ := hp
  simp only at hp1 hp2
  subst hp2
  simp only
  rw [hab.stats]
  refine .same _ fun st2 _ => ?_
  refine (Concur.foldlM (R := UpdBare k) (fun u u' id hu => updateOne_bare cfg curr _ hu id) a.live
    ⟨ts1, a.deps, st2⟩ ⟨ts1', b.deps, st2⟩ ⟨hp1, hab.deps, rfl⟩).bind fun u u' hu => .ok ?_
  refine ⟨hu.ts, hu.deps, hab.queue, ?_, rfl, hu.stats⟩
  show List.filter _ _ = List.filter _ _
  refine List.filter_congr fun i _ => ?_
  congr 1
  unfold isComplete
  cases ht : u.ts[i]? with
  | none => rw [hu.ts.none ht]
  | some t =>
    obtain ⟨_, e1, pp, ep, zp, rfl, kp⟩ := hu.ts.some ht
    rw [e1]

/-- Endings that differ in phases only. -/
def EndBare (k : Bool) : Ending → Ending → Prop
  | .finished s c, .finished s' c' => SimBare k s s' ∧ c' = c
  | .limit s c, .limit s' c' => SimBare k s s' ∧ c' = c
  | _, _ => False

theorem loop_bare {cfg : SimCfg} (hr : RatesBare k cfg.rates) : ∀ (n curr : Nat) (s s' : Sim), SimBare k s s' →
    Concur (EndBare k) (simLoop cfg n curr s) (simLoop cfg n curr s') := by
  intro n
  induction n with
  | zero => intro curr s s' _; exact .diverge
  | succ n ih =>
    intro curr s s' h
    unfold simLoop
    refine (step_bare hr curr h).bind fun a b hab => ?_
    rw [hab.live, hab.queue]
    split
    · exact .ok ⟨hab, rfl⟩
    · split
      · exact .ok ⟨hab, rfl⟩
      · exact ih _ _ _ hab

/-! ### Set-up -/

theorem Concur.foldlM_two {α β ε ζ : Type} {R : α → β → Prop} {S : ε → ζ → Prop} {f : α → ε → Out α} {g : β → ζ → Out β}
    (hf : ∀ a b e e', R a b → S e e' → Concur R (f a e) (g b e')) {l : List ε} {l' : List ζ} (hl : List.Forall₂ S l l') :
    ∀ (a : α) (b : β), R a b → Concur R (Out.foldlM f a l) (Out.foldlM g b l') := by
  induction hl with
  | nil => intro a b h; exact .ok h
  | cons he _ ih =>
    intro a b h
    rw [Out.foldlM_cons, Out.foldlM_cons]
    exact (hf a b _ _ h he).bind fun a' b' h' => ih a' b' h'

theorem foldlM_map' {α β γ : Type} (f : γ → β → Out γ) (g : α → β) : ∀ (l : List α) (c : γ),
    Out.foldlM f c (l.map g) = Out.foldlM (fun c a => f c (g a)) c l := by
  intro l
  induction l with
  | nil => intro c; rfl
  | cons a l ih =>
    intro c
    rw [List.map_cons, Out.foldlM_cons, Out.foldlM_cons]
    congr 1
    funext c'
    exact ih c'

/-- Transfers that differ in phases only. -/
def SameTransfers (k : Bool) (l l' : List Transfer) : Prop := l'.map (noPhase k) = l.map (noPhase k)

theorem SameTransfers.forall₂ : ∀ {l l' : List Transfer}, SameTransfers k l l' →
    List.Forall₂ (fun t t' => Relabelled k t t') l l'
  | [], [], _ => .nil
  | [], _ :: _, h => by cases h
  | _ :: _, [], h => by cases h
  | t :: l, t' :: l', h => by
    unfold SameTransfers at h
    rw [List.map_cons, List.map_cons, List.cons.injEq] at h
    exact .cons (noPhase_eq h.1) (SameTransfers.forall₂ h.2)

theorem SameTransfers.length {l l' : List Transfer} (h : SameTransfers k l l') : l'.length = l.length := by
  simpa using congrArg List.length h

/-- Something that does not look at phases. -/
theorem SameTransfers.mapM {γ : Type} {l l' : List Transfer} (h : SameTransfers k l l') {f : Transfer → Out γ}
    (hf : ∀ t p e z, f { t with phaseId := p, eventType := e, zonePath := z } = f t) : Out.mapM f l' = Out.mapM f l := by
  have e : (fun t => f (noPhase k t)) = f := funext fun t => hf t _ _ _
  have key : ∀ l, Out.mapM f (l.map (noPhase k)) = Out.mapM f l := fun l => by rw [mapM_map', e]
  rw [← key, ← key l, h]

theorem SameTransfers.foldlM {γ : Type} {l l' : List Transfer} (h : SameTransfers k l l') {f : γ → Transfer → Out γ}
    (hf : ∀ c t p e z, f c { t with phaseId := p, eventType := e, zonePath := z } = f c t) (c : γ) : Out.foldlM f c l' = Out.foldlM f c l := by
  have e : (fun c t => f c (noPhase k t)) = f := funext fun c => funext fun t => hf c t _ _ _
  have key : ∀ l, Out.foldlM f c (l.map (noPhase k)) = Out.foldlM f c l := fun l => by rw [foldlM_map', e]
  rw [← key, ← key l, h]

theorem SameTransfers.filter {l l' : List Transfer} (h : SameTransfers k l l') {f : Transfer → Bool}
    (hf : ∀ t p e z, f { t with phaseId := p, eventType := e, zonePath := z } = f t) : SameTransfers k (l.filter f) (l'.filter f) := by
  unfold SameTransfers
  have e : f ∘ noPhase k = f := funext fun t => hf t _ _ _
  have key : ∀ l : List Transfer, (l.map (noPhase k)).filter f = (l.filter f).map (noPhase k) := by
    intro l
    rw [List.filter_map, e]
  rw [← key, ← key, h]

/-- Slots that differ in phases only. -/
def SameSlots (k : Bool) (l l' : List (Option TState)) : Prop := l'.map (Option.map (bare k)) = l.map (Option.map (bare k))

theorem initOne_bare (ord : List Int → List Int) (n : Nat) {l l' : List (Option TState)} (h : SameSlots k l l')
    {t t' : Transfer} (ht : Relabelled k t t') :
    Concur (SameSlots k) (initOne dev ord n l t) (initOne dev ord n l' t') := by
  obtain ⟨p, e, z, rfl, kt⟩ := ht
  unfold initOne
  refine .same _ fun _ _ => .same (dev.route ord t.noc t.src t.dst) fun r _ => .ok ?_
  unfold SameSlots
  rw [List.map_set, List.map_set, h]
  simp only [Option.map_some, bare, kt]

theorem slots_bare : ∀ {l l' : List (Option TState)}, SameSlots k l l' →
    Concur (SameBare k) (Out.mapM (fun o => match o with | some t => .ok t | none => .ub) l)
      (Out.mapM (fun o => match o with | some t => .ok t | none => .ub) l')
  | [], [], _ => .ok rfl
  | [], _ :: _, h => by cases h
  | _ :: _, [], h => by cases h
  | o :: l, o' :: l', h => by
    unfold SameSlots at h
    rw [List.map_cons, List.map_cons, List.cons.injEq] at h
    rw [Out.mapM_cons, Out.mapM_cons]
    obtain ⟨h1, h2⟩ := h
    cases o with
    | none =>
      cases o' with
      | none => exact .ub
      | some t' => cases h1
    | some t =>
      cases o' with
      | none => cases h1
      | some t' =>
        refine Concur.bind (R := fun a b => bare k b = bare k a) (.ok (Option.some.inj h1)) fun a b hab => ?_
        refine (slots_bare h2).bind fun c d hcd => .ok ?_
        unfold SameBare
        rw [List.map_cons, List.map_cons, hab, hcd]

theorem initTransferState_bare (ord : List Int → List Int) {wl wl' : Workload}
    (h : SameTransfers k wl.transfers wl'.transfers) :
    Concur (SameBare k) (initTransferState dev ord wl) (initTransferState dev ord wl') := by
  unfold initTransferState
  simp only
  rw [h.length]
  refine (Concur.foldlM_two (R := SameSlots k) (S := fun t t' : Transfer => Relabelled k t t')
    (fun a b e e' hab he => initOne_bare ord _ hab he) h.forall₂ _ _ rfl).bind
    fun a b hab => slots_bare hab

/-- Set-up states that differ in phases only. -/
def PairBare (k : Bool) (p p' : List TState × Tracker) : Prop := SameBare k p.1 p'.1 ∧ p'.2 = p.2

theorem addDep_bare {st st' : List TState × Tracker} (h : PairBare k st st') (p c delay : Nat) :
    Concur (PairBare k) (addDep st p c delay) (addDep st' p c delay) := by
  obtain ⟨ts, tk⟩ := st
  obtain ⟨ts', tk'⟩ := st'
  obtain ⟨h1, h2⟩ := h
  simp only at h1 h2
  subst h2
  unfold addDep
  simp only
  cases hc : ts[c]? with
  | none => rw [h1.none hc]; exact .ub
  | some t =>
    obtain ⟨_, e, pq, eq, zq, rfl, kq⟩ := h1.some hc
    rw [e]
    simp only
    have h3 : SameBare k (ts.set c { t with dependsOn := (tk'.create 1 delay).1 })
      (ts'.set c { t with
        params := { t.params with phaseId := pq, eventType := eq, zonePath := zq }, dependsOn := (tk'.create 1 delay).1 }) :=
      h1.set c (by simp only [bare, kq])
    cases hp : (ts.set c { t with dependsOn := (tk'.create 1 delay).1 })[p]? with
    | none => rw [h3.none hp]; exact .ub
    | some u =>
      obtain ⟨_, e', pq', eq', zq', rfl, kq'⟩ := h3.some hp
      rw [e']
      exact .ok ⟨h3.set p (by simp only [bare, kq']), rfl⟩

theorem SameBare.mapM {γ : Type} (h : SameBare k ts ts') {f : TState → Out γ} (hf : ∀ t, f (bare k t) = f t) :
    Out.mapM f ts' = Out.mapM f ts := by
  have e : (fun t => f (bare k t)) = f := funext hf
  have key : ∀ l, Out.mapM f (l.map (bare k)) = Out.mapM f l := fun l => by rw [mapM_map', e]
  rw [← key, ← key ts, h]

theorem SameBare.map {γ : Type} (h : SameBare k ts ts') {f : TState → γ} (hf : ∀ t, f (bare k t) = f t) :
    ts'.map f = ts.map f := by
  have e : f ∘ bare k = f := funext hf
  have key : ∀ l : List TState, (l.map (bare k)).map f = l.map f := fun l => by rw [List.map_map, e]
  rw [← key, ← key ts, h]

theorem groupMap_bare (h : SameBare k ts ts') : groupMap ts' = groupMap ts := by
  have key : ∀ ts : List TState, groupMap (ts.map (bare k)) = groupMap ts := by
    intro ts
    unfold groupMap
    rw [List.filter_map, List.map_map]
    rfl
  rw [← key, ← key ts, h]

theorem genDependencies_bare (bord : List BucketKey → List BucketKey) (h : SameBare k ts ts') :
    Concur (PairBare k) (genDependencies fp dev bord ts) (genDependencies fp dev bord ts') := by
  unfold genDependencies
  refine Concur.bind (R := PairBare k) ?_ fun st st' hst => ?_
  · unfold niuPass
    rw [h.mapM (fun t => rfl)]
    refine .same _ fun keyed _ => ?_
    refine Concur.foldlM (R := PairBare k) (fun a b key hab => ?_) _ _ _ ⟨h, rfl⟩
    unfold chainBucket
    simp only
    exact Concur.foldlM (R := PairBare k) (fun a b e hab => addDep_bare hab e.1.2 e.2.2 0) _ _ _ hab
  · rw [groupMap_bare h]
    have e : SameTransfers k (ts.map (·.params)) (ts'.map (·.params)) := by
      unfold SameTransfers
      rw [List.map_map, List.map_map]
      exact h.map (f := noPhase k ∘ (·.params)) (fun t => noPhase_twice t.params)
    refine (Concur.foldlM_two (R := PairBare k) (S := fun t t' : Transfer => Relabelled k t t')
      (fun a b t t' hab ht => ?_) e.forall₂ st st' hst).bind fun a b hab => ?_
    · obtain ⟨p, e, z, rfl, kt⟩ := ht
      unfold groupOne
      simp only
      split
      · cases hp : a.1[(List.lookup (t.groupId, t.groupParent) (groupMap ts)).getD 0]? with
        | none => rw [hab.1.none hp]; exact .ub
        | some tp =>
          obtain ⟨_, e', pq, eq, zq, rfl, kq⟩ := hab.1.some hp
          rw [e']
          exact .same (groupDelay fp dev t tp.params.src.dev) fun d _ => addDep_bare hab _ _ _
      · exact .ok hab
    · obtain ⟨h1, h2⟩ := hab
      have e : selfCheck b.1 b.2 = selfCheck a.1 a.2 := by
        unfold selfCheck
        rw [h2]
        have : b.1.flatMap (·.requiredBy) = a.1.flatMap (·.requiredBy) := by
          rw [List.flatMap_def, List.flatMap_def, h1.map (fun t => rfl)]
        rw [this]
      rw [e]
      exact .same _ fun tk _ => .ok ⟨h1, rfl⟩

theorem initSim_bare (ho : HashOrder) {wl wl' : Workload} (h : SameTransfers k wl.transfers wl'.transfers) :
    Concur (SimBare k) (initSim fp dev ho wl) (initSim fp dev ho wl') := by
  unfold initSim
  refine (initTransferState_bare ho.links h).bind fun ts ts' hts => ?_
  refine (genDependencies_bare ho.buckets hts).bind fun p p' hp => .ok ⟨hp.1, hp.2, ?_, rfl, rfl, rfl⟩
  show createTransferQueue ts' = createTransferQueue ts
  unfold createTransferQueue
  rw [hts.map (fun t => rfl)]

/-- Workloads that differ in phases only; or, if labels need not be kept, also in labels, number of groups and zones. -/
structure Regrouped (k : Bool) (wl wl' : Workload) : Prop where
  transfers : SameTransfers k wl.transfers wl'.transfers
  golden : wl'.golden = wl.golden
  groups : k = true → wl'.numTransferGroups = wl.numTransferGroups
  zones : k = true → wl'.zones = wl.zones

/-- A simulation. -/
theorem runSingle_bare (ho : HashOrder) (cpt : Nat) (en : Bool) {wl wl' : Workload} (h : Regrouped k wl wl') :
    Concur (fun r r' => (∃ s s' st, r = .inl (s, st) ∧ r' = .inl (s', st) ∧ SameBare k s.ts s'.ts) ∨
      ∃ e, r = .inr e ∧ r' = .inr e) (runSingle fp dev ho cpt en wl) (runSingle fp dev ho cpt en wl') := by
  unfold runSingle runLoop
  rw [h.golden]
  refine ((initSim_bare ho h.transfers).bind (S := EndBare k) fun s s' h => ?_).bind fun e e' he => ?_
  · exact loop_bare (cfg := simConfig fp dev cpt wl.golden en) (fun ts ts' h sot curr g live =>
      bare_rates h en sot curr g live) _ _ _ _ h
  · cases e with
    | finished s c =>
      cases e' with
      | limit _ _ => exact absurd he (by simp [EndBare])
      | finished s' c' =>
        obtain ⟨h1, h2⟩ := he
        simp only
        rw [h1.stats]
        exact .same _ fun st _ => .ok (Or.inl ⟨s, s', st, rfl, rfl, h1.ts⟩)
    | limit s c =>
      cases e' with
      | finished _ _ => exact absurd he (by simp [EndBare])
      | limit s' c' => exact .ok (Or.inr ⟨_, rfl, rfl⟩)

end

end NPE
