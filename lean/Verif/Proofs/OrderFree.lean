import Verif.Proofs.FluidOrder

/-
Two simulations whose dependencies carry different checkpoint numbers behave alike.
-/

namespace NPE
open NPE.Spec NPE.Spec.Fluid

/-- The same kind of outcome, with related results. -/
inductive Concur {α β : Type} (R : α → β → Prop) : Out α → Out β → Prop
  | ok {a : α} {b : β} : R a b → Concur R (.ok a) (.ok b)
  | exc (c : ErrCode) : Concur R (.exc c) (.exc c)
  | std (e : StdExc) : Concur R (.std e) (.std e)
  | exit : Concur R .exit .exit
  | ub : Concur R .ub .ub
  | diverge : Concur R .diverge .diverge

namespace Concur
variable {α β γ δ : Type} {R : α → β → Prop} {S : γ → δ → Prop}

theorem bind {x : Out α} {y : Out β} {f : α → Out γ} {g : β → Out δ} (h : Concur R x y)
    (hf : ∀ a b, R a b → Concur S (f a) (g b)) : Concur S (x >>= f) (y >>= g) := by
  cases h with
  | ok h => exact hf _ _ h
  | exc c => exact .exc c
  | std e => exact .std e
  | exit => exact .exit
  | ub => exact .ub
  | diverge => exact .diverge

theorem rfl' (x : Out α) : Concur (fun a b => a = b) x x := by
  cases x with
  | ok a => exact .ok rfl
  | exc c => exact .exc c
  | std e => exact .std e
  | exit => exact .exit
  | ub => exact .ub
  | diverge => exact .diverge

/-- The same computation on both sides. -/
theorem same (x : Out α) {f : α → Out γ} {g : α → Out δ} (hf : ∀ a, x = .ok a → Concur S (f a) (g a)) :
    Concur S (x >>= f) (x >>= g) := by
  cases x with
  | ok a => exact hf a rfl
  | exc c => exact .exc c
  | std e => exact .std e
  | exit => exact .exit
  | ub => exact .ub
  | diverge => exact .diverge

theorem foldlM {ε : Type} {f : α → ε → Out α} {g : β → ε → Out β}
    (hf : ∀ a b e, R a b → Concur R (f a e) (g b e)) : ∀ (l : List ε) (a : α) (b : β), R a b →
      Concur R (Out.foldlM f a l) (Out.foldlM g b l) := by
  intro l
  induction l with
  | nil => intro a b h; exact .ok h
  | cons e l ih =>
    intro a b h
    rw [Out.foldlM_cons, Out.foldlM_cons]
    exact (hf a b e h).bind fun a' b' h' => ih a' b' h'

theorem toEq {x y : Out α} (h : Concur (fun a b => a = b) x y) : x = y := by
  cases h with
  | ok h => rw [h]
  | exc c => rfl
  | std e => rfl
  | exit => rfl
  | ub => rfl
  | diverge => rfl

theorem mono {R' : α → β → Prop} {x : Out α} {y : Out β} (h : Concur R x y) (hr : ∀ a b, R a b → R' a b) :
    Concur R' x y := by
  cases h with
  | ok h => exact .ok (hr _ _ h)
  | exc c => exact .exc c
  | std e => exact .std e
  | exit => exact .exit
  | ub => exact .ub
  | diverge => exact .diverge

end Concur

/-- A transfer without its checkpoint numbers. -/
def unlinked (t : TState) : TState := { t with dependsOn := -1, requiredBy := [] }

/-- The checkpoint numbers of a transfer. -/
def numbers (t : TState) : Int × List Int := (t.dependsOn, t.requiredBy)

/-- The same transfers, apart from checkpoint numbers, which are those of `L` and `L'`. -/
structure Linked (L L' : List (Int × List Int)) (ts ts' : List TState) : Prop where
  left : ts.map numbers = L
  right : ts'.map numbers = L'
  same : ts'.map unlinked = ts.map unlinked

theorem unlinked_eq {t t' : TState} (h : unlinked t' = unlinked t) :
    t' = { t with dependsOn := t'.dependsOn, requiredBy := t'.requiredBy } := by
  obtain ⟨a1, a2, a3, a4, a5, a6, a7, a8⟩ := t
  obtain ⟨b1, b2, b3, b4, b5, b6, b7, b8⟩ := t'
  simp only [unlinked, TState.mk.injEq] at h
  simp [h]

namespace Linked
variable {L L' : List (Int × List Int)} {ts ts' : List TState}

theorem none (h : Linked L L' ts ts') {i : Nat} (hi : ts[i]? = none) : ts'[i]? = none := by
  have := congrArg (fun l => l[i]?) h.same
  simp only [List.getElem?_map, hi, Option.map_none, Option.map_eq_none_iff] at this
  exact this

theorem some (h : Linked L L' ts ts') {i : Nat} {t : TState} (hi : ts[i]? = some t) :
    ∃ d r, ts'[i]? = some { t with dependsOn := d, requiredBy := r } ∧ L[i]? = Option.some (numbers t) ∧
      L'[i]? = Option.some (d, r) := by
  have e := congrArg (fun l => l[i]?) h.same
  simp only [List.getElem?_map, hi, Option.map_some] at e
  cases h' : ts'[i]? with
  | none => rw [h'] at e; cases e
  | some t' =>
    rw [h'] at e
    simp only [Option.map_some, Option.some.injEq] at e
    refine ⟨t'.dependsOn, t'.requiredBy, congrArg _ (unlinked_eq e), ?_, ?_⟩
    · rw [← h.left, List.getElem?_map, hi]; rfl
    · rw [← h.right, List.getElem?_map, h']; rfl

theorem set (h : Linked L L' ts ts') {i : Nat} {t u : TState} {d : Int} {r : List Int} (hi : ts[i]? = Option.some t)
    (hi' : L'[i]? = Option.some (d, r)) (hu : numbers u = numbers t) :
    Linked L L' (ts.set i u) (ts'.set i { u with dependsOn := d, requiredBy := r }) := by
  have key : ∀ {α : Type} (l : List α) (a : α), l[i]? = Option.some a → l.set i a = l := by
    intro α l a h
    obtain ⟨hl, hg⟩ := List.getElem?_eq_some_iff.mp h
    rw [← hg, List.set_getElem_self]
  refine ⟨?_, ?_, ?_⟩
  · rw [List.map_set, h.left, hu]
    exact key _ _ (by rw [← h.left, List.getElem?_map, hi]; rfl)
  · rw [List.map_set, h.right]
    exact key _ _ hi'
  · rw [List.map_set, List.map_set, h.same]
    rfl

end Linked

section
variable {fp : FP} {dev : Device} {L L' : List (Int × List Int)} {ts ts' : List TState}

theorem linked_updateBw (h : Linked L L' ts ts') (id : Nat) :
    Concur (Linked L L') (updateBwOne fp dev ts id) (updateBwOne fp dev ts' id) := by
  unfold updateBwOne
  cases hi : ts[id]? with
  | none => rw [h.none hi]; exact .ub
  | some t =>
    obtain ⟨d, r, h1, _, h3⟩ := h.some hi
    rw [h1]
    exact .same _ fun b _ => .ok (h.set (u := { t with bw := min t.params.injectionRate b }) hi h3 rfl)

theorem linked_demand (h : Linked L L' ts ts') (sot curr : Nat) (g : Grids) (id : Nat) :
    demandOne fp dev sot curr ts' g id = demandOne fp dev sot curr ts g id := by
  unfold demandOne
  cases hi : ts[id]? with
  | none => rw [h.none hi]
  | some t =>
    obtain ⟨d, r, h1, _, h3⟩ := h.some hi
    rw [h1]
    rfl

theorem linked_demands (h : Linked L L' ts ts') (sot curr : Nat) (live : List Nat) :
    demands fp dev sot curr ts' live = demands fp dev sot curr ts live := by
  unfold demands
  congr 1
  funext g id
  exact linked_demand h sot curr g id

theorem linked_derate (h : Linked L L' ts ts') (g : Grids) (id : Nat) :
    Concur (Linked L L') (derateOne fp dev g ts id) (derateOne fp dev g ts' id) := by
  unfold derateOne
  cases hi : ts[id]? with
  | none => rw [h.none hi]; exact .ub
  | some t =>
    obtain ⟨d, r, h1, _, h3⟩ := h.some hi
    rw [h1]
    exact .same (overallDerate fp dev g t) fun b _ =>
      .ok (h.set (u := { t with bw := applyDerate fp dev t.bw b }) hi h3 rfl)

/-- Rates. -/
theorem linked_rates (h : Linked L L' ts ts') (en : Bool) (sot curr : Nat) (g : Grids) (live : List Nat) :
    Concur (fun p p' => Linked L L' p.1 p'.1 ∧ p.2 = p'.2) (computeRates fp dev en sot curr g ts live)
      (computeRates fp dev en sot curr g ts' live) := by
  unfold computeRates updateTransferBandwidth
  refine (Concur.foldlM (R := Linked L L') (fun a b e hab => linked_updateBw hab e) live ts ts' h).bind fun a b hab => ?_
  cases en with
  | false => exact .ok ⟨hab, rfl⟩
  | true =>
    simp only [if_true]
    unfold modelCongestion
    rw [linked_demands hab]
    refine .same _ fun g' _ => ?_
    refine (Concur.foldlM (R := Linked L L') (fun a b e hab => linked_derate hab g' e) live a b hab).bind fun c d hcd => ?_
    exact .ok ⟨hcd, rfl⟩

/-! ### Checkpoints -/

/-- The checkpoint with a number. -/
def atNumber (tk : Tracker) (id : Int) : Option Checkpoint := if id < 0 then none else tk[id.toNat]?

/-- No number, or that of a checkpoint. -/
def NumberOk (tk : Tracker) (id : Int) : Prop := id = -1 ∨ (0 ≤ id ∧ id.toNat < tk.length)

/-- Corresponding checkpoints agree. -/
structure Joined (L L' : List (Int × List Int)) (tk tk' : Tracker) : Prop where
  view : ∀ (i : Nat) (e e' : Int × List Int), L[i]? = some e → L'[i]? = some e' →
    NumberOk tk e.1 ∧ NumberOk tk' e'.1 ∧ atNumber tk' e'.1 = atNumber tk e.1
  left : ∀ (i : Nat) (e : Int × List Int), L[i]? = some e → e.2.Nodup ∧ ∀ j ∈ e.2, 0 ≤ j ∧ j.toNat < tk.length
  right : ∀ (i : Nat) (e : Int × List Int), L'[i]? = some e → e.2.Nodup ∧ ∀ j ∈ e.2, 0 ≤ j ∧ j.toNat < tk'.length
  mem : ∀ (i j : Nat) (e e' f f' : Int × List Int), L[i]? = some e → L'[i]? = some e' → L[j]? = some f →
    L'[j]? = some f' → (e.1 ∈ f.2 ↔ e'.1 ∈ f'.2)

theorem defined_of_nonneg {id : Int} (h : 0 ≤ id) : Tracker.defined id = true := by
  have : id ≠ -1 := by omega
  simp [Tracker.defined, Tracker.UNDEFINED, this]

theorem done_view {tk : Tracker} {id : Int} (h : NumberOk tk id) (curr : Nat) :
    tk.done id curr = .ok (match atNumber tk id with | none => true | some cp => cp.done curr) := by
  unfold Tracker.done atNumber
  rcases h with rfl | ⟨h1, h2⟩
  · rfl
  · have e : Tracker.defined id = true := defined_of_nonneg h1
    rw [e, if_pos rfl, Tracker.get_eq_ok.mpr ⟨h1, List.getElem?_eq_getElem h2⟩, if_neg (by omega),
      List.getElem?_eq_getElem h2]
    rfl

theorem endCycle_view {tk : Tracker} {id : Int} (h : NumberOk tk id) :
    tk.endCycle id = .ok (match atNumber tk id with | none => 0 | some cp => cp.endc) := by
  unfold Tracker.endCycle atNumber
  rcases h with rfl | ⟨h1, h2⟩
  · rfl
  · have e : Tracker.defined id = true := defined_of_nonneg h1
    rw [e, if_pos rfl, Tracker.get_eq_ok.mpr ⟨h1, List.getElem?_eq_getElem h2⟩, if_neg (by omega),
      List.getElem?_eq_getElem h2]
    rfl

theorem endDelay_view {tk : Tracker} {id : Int} (h : NumberOk tk id) :
    tk.endCyclePlusDelay id =
      .ok (match atNumber tk id with | none => 0 | some cp => (cp.endc + cp.delay) % 4294967296) := by
  unfold Tracker.endCyclePlusDelay atNumber
  rcases h with rfl | ⟨h1, h2⟩
  · rfl
  · have e : Tracker.defined id = true := defined_of_nonneg h1
    rw [e, if_pos rfl, Tracker.get_eq_ok.mpr ⟨h1, List.getElem?_eq_getElem h2⟩, if_neg (by omega),
      List.getElem?_eq_getElem h2]
    rfl

theorem defined_view {tk : Tracker} {id : Int} (h : NumberOk tk id) :
    Tracker.defined id = (atNumber tk id).isSome := by
  unfold atNumber
  rcases h with rfl | ⟨h1, h2⟩
  · rfl
  · rw [if_neg (by omega), List.getElem?_eq_getElem h2]
    exact defined_of_nonneg h1

/-- A completion. -/
theorem Joined.update {tk tk' : Tracker} (J : Joined L L' tk tk') {p : Nat} {f f' : Int × List Int} (h : L[p]? = some f)
    (h' : L'[p]? = some f') (e : Nat) :
    Concur (Joined L L') (Out.foldlM (fun tk c => Tracker.update tk c e) tk f.2)
      (Out.foldlM (fun tk c => Tracker.update tk c e) tk' f'.2) := by
  obtain ⟨n1, v1⟩ := J.left p f h
  obtain ⟨n2, v2⟩ := J.right p f' h'
  obtain ⟨a, ha⟩ := foldlM_update_ok e f.2 tk v1
  obtain ⟨b, hb⟩ := foldlM_update_ok e f'.2 tk' v2
  obtain ⟨la, _, ga⟩ := foldlM_update _ _ _ ha n1 (fun j hj => by have := (v1 j hj).1; omega)
  obtain ⟨lb, _, gb⟩ := foldlM_update _ _ _ hb n2 (fun j hj => by have := (v2 j hj).1; omega)
  rw [ha, hb]
  refine .ok ⟨fun i x x' hx hx' => ?_, fun i x hx => ?_, fun i x hx => ?_, J.mem⟩
  · obtain ⟨o1, o2, o3⟩ := J.view i x x' hx hx'
    refine ⟨by unfold NumberOk; rw [la]; exact o1, by unfold NumberOk; rw [lb]; exact o2, ?_⟩
    have hm := J.mem i p x x' f f' hx hx' h h'
    have key : ∀ (t u : Tracker) (l : List Int) (d : Int), (∀ k : Nat, u[k]? = if (k : Int) ∈ l then t[k]?.map (bump e) else t[k]?) →
        atNumber u d = if d ∈ l then (atNumber t d).map (bump e) else atNumber t d := by
      intro t u l d hg
      unfold atNumber
      by_cases hd : d < 0
      · simp only [if_pos hd, Option.map_none, ite_self]
      · rw [if_neg hd, if_neg hd, hg d.toNat, Int.toNat_of_nonneg (by omega)]
    rw [key _ _ _ _ ga, key _ _ _ _ gb, o3]
    by_cases hc : x.1 ∈ f.2
    · rw [if_pos hc, if_pos (hm.mp hc)]
    · rw [if_neg hc, if_neg (fun h => hc (hm.mpr h))]
  · obtain ⟨o1, o2⟩ := J.left i x hx
    exact ⟨o1, fun j hj => by rw [la]; exact o2 j hj⟩
  · obtain ⟨o1, o2⟩ := J.right i x hx
    exact ⟨o1, fun j hj => by rw [lb]; exact o2 j hj⟩

/-! ### One timestep -/

/-- Scans that differ in checkpoint numbers only. -/
structure ScanLike (L L' : List (Int × List Int)) (s s' : Scan) : Prop where
  ts : Linked L L' s.ts s'.ts
  queue : s'.queue = s.queue
  live : s'.live = s.live
  activated : s'.activated = s.activated

theorem scan_alike {tk tk' : Tracker} (J : Joined L L' tk tk') (curr : Nat) : ∀ (m : Nat) (s s' : Scan),
    ScanLike L L' s s' → Concur (ScanLike L L') (scanGo tk curr m s) (scanGo tk' curr m s') := by
  intro m
  induction m with
  | zero => intro s s' h; exact .ok h
  | succ i ih =>
    intro s s' h
    unfold scanGo
    rw [h.queue]
    cases hq : s.queue[i]? with
    | none => exact .ub
    | some q =>
      simp only
      by_cases hc : q.1 ≤ curr
      · rw [if_pos hc, if_pos hc]
        cases ht : s.ts[q.2]? with
        | none => rw [h.ts.none ht]; exact .ub
        | some t =>
          obtain ⟨d, r, h1, h2, h3⟩ := h.ts.some ht
          obtain ⟨o1, o2, o3⟩ := J.view _ _ _ h2 h3
          rw [h1]
          simp only
          have e1 : Tracker.done tk' d curr = Tracker.done tk t.dependsOn curr := by
            rw [done_view o2, o3]; exact (done_view o1 curr).symm
          have e2 : startAfterDep tk' { t with dependsOn := d, requiredBy := r } = startAfterDep tk t := by
            unfold startAfterDep
            simp only
            rw [defined_view o2, endDelay_view o2, o3]
            have a := defined_view o1
            have b := endDelay_view o1
            simp only [numbers] at a b
            rw [a, b]
            rfl
          rw [e1, e2, h.activated, h.live]
          refine .same _ fun dn _ => ?_
          cases dn with
          | false => exact ih s s' h
          | true =>
            simp only [if_true]
            refine .same _ fun st _ => .same _ fun qu _ => ih _ _ ⟨?_, rfl, rfl, rfl⟩
            exact h.ts.set (u := { t with start := st }) ht h3 rfl
      · rw [if_neg hc, if_neg hc]; exact .ok h

/-- Simulations that differ in checkpoint numbers only. -/
structure SimLike (L L' : List (Int × List Int)) (s s' : Sim) : Prop where
  ts : Linked L L' s.ts s'.ts
  deps : Joined L L' s.deps s'.deps
  queue : s'.queue = s.queue
  live : s'.live = s.live
  grids : s'.grids = s.grids
  stats : s'.stats = s.stats

theorem activate_alike {s s' : Sim} (h : SimLike L L' s s') (curr : Nat) :
    Concur (SimLike L L') (activate curr s) (activate curr s') := by
  unfold activate
  rw [h.queue, h.live]
  refine (scan_alike h.deps curr _ ⟨s.ts, s.queue, s.live, 0⟩ ⟨s'.ts, s.queue, s.live, 0⟩ ⟨h.ts, rfl, rfl, rfl⟩).bind fun a b hab => .ok ?_
  refine ⟨hab.ts, h.deps, ?_, hab.live, h.grids, h.stats⟩
  simp only [hab.queue, hab.activated]

/-- States of the update loop that differ in checkpoint numbers only. -/
structure UpdLike (L L' : List (Int × List Int)) (u u' : Upd) : Prop where
  ts : Linked L L' u.ts u'.ts
  deps : Joined L L' u.deps u'.deps
  stats : u'.stats = u.stats

theorem updateOne_alike (cfg : SimCfg) (curr sot : Nat) {u u' : Upd} (h : UpdLike L L' u u') (id : Nat) :
    Concur (UpdLike L L') (updateOne cfg curr sot u id) (updateOne cfg curr sot u' id) := by
  unfold updateOne
  cases ht : u.ts[id]? with
  | none => rw [h.ts.none ht]; exact .ub
  | some t =>
    obtain ⟨d, r, h1, h2, h3⟩ := h.ts.some ht
    obtain ⟨o1, o2, o3⟩ := h.deps.view _ _ _ h2 h3
    rw [h1]
    simp only
    have e1 : Tracker.done u'.deps d curr = Tracker.done u.deps t.dependsOn curr := by
      rw [done_view o2, o3]; exact (done_view o1 curr).symm
    have e2 : cyclesActive cfg.cpt curr sot { t with dependsOn := d, requiredBy := r } u'.deps =
        cyclesActive cfg.cpt curr sot t u.deps := by
      unfold cyclesActive
      simp only
      rw [defined_view o2, endCycle_view o2, o3]
      have a := defined_view o1
      have b := endCycle_view o1
      simp only [numbers] at a b
      rw [a, b]
      rfl
    rw [e1, e2]
    refine .same _ fun dn _ => .same _ fun _ _ => .same _ fun c _ => .same _ fun mb _ => ?_
    split
    · unfold completeOne
      refine .same (transferEnd cfg.fp sot { t with moved := t.moved + min (t.params.totalBytes - t.moved) mb } _) fun e _ => ?_
      refine (h.deps.update h2 h3 _).bind fun a b hab => ?_
      refine .same (cfg.golden.at t.params.src.dev) fun g _ => .same (cfg.golden.at MESH_DEVICE) fun gm _ => .ok ⟨?_, hab, ?_⟩
      · exact h.ts.set (u := { t with moved := t.moved + min (t.params.totalBytes - t.moved) mb, endc := e % 4294967296 }) ht h3 rfl
      · simp only [h.stats]
    · exact .ok ⟨h.ts.set (u := { t with moved := t.moved + min (t.params.totalBytes - t.moved) mb }) ht h3 rfl, h.deps, h.stats⟩

/-- Rate computations that do not look at checkpoint numbers. -/
def RatesBlind (r : Rates) : Prop := ∀ L L' ts ts', Linked L L' ts ts' → ∀ sot curr g live,
  Concur (fun p p' => Linked L L' p.1 p'.1 ∧ p.2 = p'.2) (r sot curr g ts live) (r sot curr g ts' live)

theorem step_alike {cfg : SimCfg} (hr : RatesBlind cfg.rates) (curr : Nat) {s s' : Sim} (h : SimLike L L' s s') :
    Concur (SimLike L L') (stepSim cfg curr s) (stepSim cfg curr s') := by
  unfold stepSim
  simp only
  rw [h.stats]
  refine .same _ fun st _ => ?_
  refine (activate_alike (s := { s with stats := st }) (s' := { s' with stats := st })
    ⟨h.ts, h.deps, h.queue, h.live, h.grids, rfl⟩ curr).bind fun a b hab => ?_
  rw [hab.grids, hab.live]
  refine (hr L L' _ _ hab.ts _ _ _ _).bind fun p p' hp => ?_
  obtain ⟨ts1, g1⟩ := p
  obtain ⟨ts1', g1'⟩ := p'
  obtain ⟨hp1, hp2⟩ := hp
  simp only at hp1 hp2
  subst hp2
  simp only
  rw [hab.stats]
  refine .same _ fun st2 _ => ?_
  refine (Concur.foldlM (R := UpdLike L L') (fun u u' id hu => updateOne_alike cfg curr _ hu id) a.live
    ⟨ts1, a.deps, st2⟩ ⟨ts1', b.deps, st2⟩ ⟨hp1, hab.deps, rfl⟩).bind fun u u' hu => .ok ?_
  refine ⟨hu.ts, hu.deps, hab.queue, ?_, rfl, hu.stats⟩
  show List.filter _ _ = List.filter _ _
  refine List.filter_congr fun i _ => ?_
  congr 1
  unfold isComplete
  cases ht : u.ts[i]? with
  | none => rw [hu.ts.none ht]
  | some t =>
    obtain ⟨d, r, e1, _, _⟩ := hu.ts.some ht
    rw [e1]

/-- Endings that differ in checkpoint numbers only. -/
def EndLike (L L' : List (Int × List Int)) : Ending → Ending → Prop
  | .finished s c, .finished s' c' => SimLike L L' s s' ∧ c' = c
  | .limit s c, .limit s' c' => SimLike L L' s s' ∧ c' = c
  | _, _ => False

theorem loop_alike {cfg : SimCfg} (hr : RatesBlind cfg.rates) : ∀ (n curr : Nat) (s s' : Sim), SimLike L L' s s' →
    Concur (EndLike L L') (simLoop cfg n curr s) (simLoop cfg n curr s') := by
  intro n
  induction n with
  | zero => intro curr s s' _; exact .diverge
  | succ n ih =>
    intro curr s s' h
    unfold simLoop
    refine (step_alike hr curr h).bind fun a b hab => ?_
    rw [hab.live, hab.queue]
    split
    · exact .ok ⟨hab, rfl⟩
    · split
      · exact .ok ⟨hab, rfl⟩
      · exact ih _ _ _ hab

end

end NPE
