import Verif.Proofs.PhasesOutput
import Verif.Spec.Measured

/-
Two simulations of the same transfers with different golden windows: they run in lockstep, and only the statistics can
differ.
-/

namespace NPE
open NPE.Spec

/-- What `completeOne` does to the statistics. -/
def worstTwice (g : GoldenMap) (t : Transfer) (e : Nat) (st : Stats) : Out Stats :=
  g.at t.src.dev >>= fun w => g.at MESH_DEVICE >>= fun wm =>
    .ok ((st.updateWorst t.src.dev t.offset e w).updateWorst MESH_DEVICE t.offset e wm)

/-- A relation of statistics that all operations of the loop keep, for transfers with these parameters. -/
structure Keeps (dev : Device) (ps : List Transfer) (g g' : GoldenMap) (T : Stats → Stats → Prop) : Prop where
  insert : ∀ st st', T st st' → ∀ a b, Concur T (st.insertTimestep g a b) (st'.insertTimestep g' a b)
  sim : ∀ st st', T st st' → ∀ gr live, Concur T (st.updateSim dev gr live) (st'.updateSim dev gr live)
  worst : ∀ t ∈ ps, ∀ st st', T st st' → ∀ e, Concur T (worstTwice g t e st) (worstTwice g' t e st')

/-- The states of transfers with these parameters. -/
def HasParams (ps : List Transfer) (ts : List TState) : Prop := ts.map (·.params) = ps

namespace HasParams
variable {ps : List Transfer} {ts : List TState}

theorem set (h : HasParams ps ts) {i : Nat} {t : TState} (hi : ts[i]? = some t) {u : TState} (hu : u.params = t.params) :
    HasParams ps (ts.set i u) := by
  unfold HasParams
  rw [List.map_set, hu, ← h]
  refine List.ext_getElem? fun j => ?_
  rw [List.getElem?_set]
  by_cases hj : i = j
  · subst hj
    have := (List.getElem?_eq_some_iff.mp hi).1
    simp only [List.length_map, this, if_true, List.getElem?_map, hi, Option.map_some]
  · rw [if_neg hj]

theorem mem (h : HasParams ps ts) {i : Nat} {t : TState} (hi : ts[i]? = some t) : t.params ∈ ps := by
  rw [← h]
  exact List.mem_map_of_mem (List.mem_of_getElem? hi)

end HasParams

/-- Related results are those of the two computations. -/
theorem Concur.attach {α β : Type} {R : α → β → Prop} {x : Out α} {y : Out β} (h : Concur R x y) :
    Concur (fun a b => R a b ∧ x = .ok a ∧ y = .ok b) x y := by
  cases h with
  | ok h => exact .ok ⟨h, rfl, rfl⟩
  | exc c => exact .exc c
  | std e => exact .std e
  | exit => exact .exit
  | ub => exact .ub
  | diverge => exact .diverge

section
variable {fp : FP} {dev : Device} {ps : List Transfer} {g g' : GoldenMap} {T : Stats → Stats → Prop}

/-- The same states, with these parameters. -/
def Kept (ps : List Transfer) (ts ts' : List TState) : Prop := ts' = ts ∧ HasParams ps ts

/-- A loop whose steps keep the parameters. -/
theorem kept_foldlM {f : List TState → Nat → Out (List TState)}
    (hf : ∀ ts i, HasParams ps ts → Concur (Kept ps) (f ts i) (f ts i)) (l : List Nat) {ts : List TState}
    (h : HasParams ps ts) : Concur (Kept ps) (Out.foldlM f ts l) (Out.foldlM f ts l) := by
  refine Concur.foldlM (R := Kept ps) (fun a b e hab => ?_) l ts ts ⟨rfl, h⟩
  obtain ⟨rfl, h⟩ := hab
  exact hf _ _ h

theorem kept_rates (en : Bool) (sot curr : Nat) (gr : Grids) {ts : List TState} (h : HasParams ps ts) (live : List Nat) :
    Concur (fun p p' => p' = p ∧ HasParams ps p.1) (computeRates fp dev en sot curr gr ts live)
      (computeRates fp dev en sot curr gr ts live) := by
  unfold computeRates updateTransferBandwidth
  refine Concur.bind (R := Kept ps) (kept_foldlM (fun ts i h => ?_) live h) fun a b hab => ?_
  · unfold updateBwOne
    cases hi : ts[i]? with
    | none => exact .ub
    | some t => exact .same _ fun b _ => .ok ⟨rfl, h.set hi rfl⟩
  · obtain ⟨rfl, ha⟩ := hab
    cases en with
    | false => exact .ok ⟨rfl, ha⟩
    | true =>
      simp only [if_true]
      unfold modelCongestion
      refine .same _ fun gr' _ => ?_
      refine Concur.bind (R := Kept ps) (kept_foldlM (fun ts i h => ?_) live ha) fun c d hcd => ?_
      · unfold derateOne
        cases hi : ts[i]? with
        | none => exact .ub
        | some t => exact .same _ fun b _ => .ok ⟨rfl, h.set hi rfl⟩
      · obtain ⟨rfl, hc⟩ := hcd
        exact .ok ⟨rfl, hc⟩

theorem kept_scan (tk : Tracker) (curr : Nat) : ∀ (m : Nat) (s : Scan), HasParams ps s.ts →
    Concur (fun r r' => r' = r ∧ HasParams ps r.ts) (scanGo tk curr m s) (scanGo tk curr m s) := by
  intro m
  induction m with
  | zero => intro s h; exact .ok ⟨rfl, h⟩
  | succ i ih =>
    intro s h
    unfold scanGo
    cases hq : s.queue[i]? with
    | none => exact .ub
    | some q =>
      simp only
      split
      · cases ht : s.ts[q.2]? with
        | none => exact .ub
        | some t =>
          refine .same _ fun dn _ => ?_
          cases dn with
          | false => exact ih s h
          | true =>
            simp only [if_true]
            exact .same _ fun st _ => .same _ fun qu _ => ih _ (h.set ht rfl)
      · exact .ok ⟨rfl, h⟩

/-- Simulations that differ in statistics only. -/
structure SimKept (ps : List Transfer) (T : Stats → Stats → Prop) (s s' : Sim) : Prop where
  eq : s' = { s with stats := s'.stats }
  params : HasParams ps s.ts
  stats : T s.stats s'.stats

theorem activate_kept {s s' : Sim} (h : SimKept ps T s s') (curr : Nat) :
    Concur (SimKept ps T) (activate curr s) (activate curr s') := by
  obtain ⟨h1, h2, h3⟩ := h
  rw [h1]
  unfold activate
  refine (kept_scan (ps := ps) s.deps curr _ ⟨s.ts, s.queue, s.live, 0⟩ h2).bind fun a b hab => ?_
  obtain ⟨rfl, ha⟩ := hab
  exact .ok ⟨rfl, ha, h3⟩

/-- States of the update loop that differ in statistics only. -/
structure UpdKept (ps : List Transfer) (T : Stats → Stats → Prop) (u u' : Upd) : Prop where
  ts : u'.ts = u.ts
  deps : u'.deps = u.deps
  params : HasParams ps u.ts
  stats : T u.stats u'.stats

/-- `completeOne` with the statistics taken apart. -/
theorem completeOne_eq (cfg : SimCfg) (sot : Nat) (u : Upd) (id : Nat) (t : TState) (bytes : Nat) :
    completeOne cfg sot u id t bytes = (transferEnd cfg.fp sot t bytes >>= fun e =>
      Out.foldlM (fun tk c => Tracker.update tk c (e % 4294967296)) u.deps t.requiredBy >>= fun deps =>
      worstTwice cfg.golden t.params (e % 4294967296) u.stats >>= fun st =>
      .ok { ts := u.ts.set id { t with endc := e % 4294967296 }, deps := deps, stats := st }) := by
  unfold completeOne worstTwice
  refine congrArg _ (funext fun e => ?_)
  simp only
  refine congrArg _ (funext fun deps => ?_)
  rw [bind_assoc']
  refine congrArg _ (funext fun w => ?_)
  rw [bind_assoc']
  rfl

theorem updateOne_kept {cfg : SimCfg} (hk : Keeps dev ps cfg.golden g' T) (curr sot : Nat) {u u' : Upd}
    (h : UpdKept ps T u u') (id : Nat) :
    Concur (UpdKept ps T) (updateOne cfg curr sot u id) (updateOne { cfg with golden := g' } curr sot u' id) := by
  unfold updateOne
  rw [h.ts]
  cases ht : u.ts[id]? with
  | none => exact .ub
  | some t =>
    simp only
    rw [h.deps]
    refine .same (Tracker.done u.deps t.dependsOn curr) fun dn _ => .same _ fun _ _ =>
      .same (cyclesActive cfg.cpt curr sot t u.deps) fun c _ =>
      .same (toSize (cfg.fp.f32.fl (cfg.fp.f32.fl c * t.bw))) fun mb _ => ?_
    split
    · rw [completeOne_eq, completeOne_eq]
      refine .same _ fun e _ => ?_
      rw [h.deps]
      refine .same _ fun tk _ => ?_
      refine (hk.worst t.params (h.params.mem ht) _ _ h.stats _).bind fun st st' hst => .ok ?_
      exact ⟨by rw [h.ts], rfl, h.params.set ht rfl, hst⟩
    · exact .ok ⟨rfl, rfl, h.params.set ht rfl, h.stats⟩

/-- Rate computations that keep the parameters. -/
def RatesKept (ps : List Transfer) (r : Rates) : Prop := ∀ ts, HasParams ps ts → ∀ sot curr gr live,
  Concur (fun p p' => p' = p ∧ HasParams ps p.1) (r sot curr gr ts live) (r sot curr gr ts live)

theorem step_kept {cfg : SimCfg} (hr : RatesKept ps cfg.rates) (hk : Keeps cfg.dev ps cfg.golden g' T) (curr : Nat)
    {s s' : Sim} (h : SimKept ps T s s') :
    Concur (SimKept ps T) (stepSim cfg curr s) (stepSim { cfg with golden := g' } curr s') := by
  unfold stepSim
  simp only
  refine (hk.insert _ _ h.stats _ _).bind fun st st' hst => ?_
  obtain ⟨h1, h2, h3⟩ := h
  rw [h1]
  refine (activate_kept (s := { s with stats := st }) (s' := { s with stats := st' }) ⟨rfl, h2, hst⟩ curr).bind
    fun a b hab => ?_
  obtain ⟨a1, a2, a3⟩ := hab
  rw [a1]
  simp only
  refine (hr _ a2 _ _ _ _).bind fun p p' hp => ?_
  obtain ⟨hpp, hp⟩ := hp
  subst hpp
  obtain ⟨ts1, g1⟩ := p'
  refine (hk.sim _ _ a3 _ _).bind fun st2 st2' hst2 => ?_
  refine (Concur.foldlM (R := UpdKept ps T) (fun u u' id hu => updateOne_kept hk curr _ hu id) a.live
    ⟨ts1, a.deps, st2⟩ ⟨ts1, a.deps, st2'⟩ ⟨rfl, rfl, hp, hst2⟩).bind fun u u' hu => .ok ?_
  refine ⟨?_, hu.params, hu.stats⟩
  rw [hu.ts, hu.deps]

/-- Endings that differ in statistics only. -/
def EndKept (ps : List Transfer) (T : Stats → Stats → Prop) : Ending → Ending → Prop
  | .finished s c, .finished s' c' => SimKept ps T s s' ∧ c' = c
  | .limit s c, .limit s' c' => SimKept ps T s s' ∧ c' = c
  | _, _ => False

theorem loop_kept {cfg : SimCfg} (hr : RatesKept ps cfg.rates) (hk : Keeps cfg.dev ps cfg.golden g' T) :
    ∀ (n curr : Nat) (s s' : Sim), SimKept ps T s s' →
    Concur (EndKept ps T) (simLoop cfg n curr s) (simLoop { cfg with golden := g' } n curr s') := by
  intro n
  induction n with
  | zero => intro curr s s' _; exact .diverge
  | succ n ih =>
    intro curr s s' h
    unfold simLoop
    refine (step_kept hr hk curr h).bind fun a b hab => ?_
    have e1 : b.live = a.live := by rw [hab.eq]
    have e2 : b.queue = a.queue := by rw [hab.eq]
    rw [e1, e2]
    split
    · exact .ok ⟨hab, rfl⟩
    · split
      · exact .ok ⟨hab, rfl⟩
      · exact ih _ _ _ hab

/-! ### Set-up -/

/-- Set-up does not change parameters. -/
theorem initSim_params {ho : HashOrder} {wl : Workload} {s : Sim} (h : initSim fp dev ho wl = .ok s) :
    ∀ t ∈ s.ts.map (·.params), t ∈ wl.transfers := by
  intro t ht
  obtain ⟨u, hu, rfl⟩ := List.mem_map.mp ht
  obtain ⟨i, hi⟩ := List.mem_iff_getElem?.mp hu
  exact ((initSim_ok h).1.slots i u hi).1

/-- A run: with related statistics at its end. -/
theorem runLoop_kept (ho : HashOrder) (cpt : Nat) (en : Bool) {wl : Workload}
    (hk : Keeps dev wl.transfers wl.golden g' T) (hT : T (Stats.init dev) (Stats.init dev)) :
    Concur (fun e e' => ∃ ps, EndKept ps T e e') (runLoop (simConfig fp dev cpt wl.golden en) ho wl)
      (runLoop (simConfig fp dev cpt g' en) ho { wl with golden := g' }) := by
  unfold runLoop
  have e : initSim fp dev ho { wl with golden := g' } = initSim fp dev ho wl := rfl
  show Concur _ (initSim fp dev ho wl >>= _) (initSim fp dev ho { wl with golden := g' } >>= _)
  rw [e]
  refine .same _ fun s hs => ?_
  obtain ⟨ps, hs0⟩ : ∃ ps, HasParams ps s.ts := ⟨_, rfl⟩
  have hp := initSim_params hs
  rw [show s.ts.map (·.params) = ps from hs0] at hp
  refine (loop_kept (cfg := simConfig fp dev cpt wl.golden en) (ps := ps) (T := T) (g' := g')
    (fun ts h sot curr gr live => kept_rates en sot curr gr h live) ⟨hk.insert, hk.sim, fun t ht => hk.worst t (hp t ht)⟩
    simFuel cpt s s ⟨rfl, hs0, ?_⟩).mono fun a b hab => ⟨_, hab⟩
  rw [(initSim_ok hs).1.stats]
  exact hT

/-! ### Windows with the same starts -/

theorem sameStarts_lookup {g g' : GoldenMap} (h : SameStarts g g') (d : Int) :
    (g.lookup d = none ∧ g'.lookup d = none) ∨
      ∃ a b b', g.lookup d = some (a, b) ∧ g'.lookup d = some (a, b') := by
  induction g generalizing g' with
  | nil =>
    cases g' with
    | nil => exact Or.inl ⟨rfl, rfl⟩
    | cons _ _ => cases h
  | cons e g ih =>
    cases g' with
    | nil => cases h
    | cons e' g' =>
      unfold SameStarts at h
      rw [List.map_cons, List.map_cons, List.cons.injEq, Prod.mk.injEq] at h
      obtain ⟨k, a, b⟩ := e
      obtain ⟨k', a', b'⟩ := e'
      obtain ⟨⟨h1, h2⟩, h3⟩ := h
      simp only at h1 h2
      subst h1 h2
      simp only [List.lookup_cons]
      by_cases hd : d = k'
      · subst hd
        right
        exact ⟨a', b, b', by simp, by simp⟩
      · have : (d == k') = false := by simpa using hd
        rw [this]
        exact ih h3

theorem sameStarts_at {g g' : GoldenMap} (h : SameStarts g g') (d : Int) :
    Concur (fun w w' => w'.1 = w.1 ∧ g.lookup d = some w ∧ g'.lookup d = some w') (g.at d) (g'.at d) := by
  unfold GoldenMap.at
  rcases sameStarts_lookup h d with ⟨h1, h2⟩ | ⟨a, b, b', h1, h2⟩
  · rw [h1, h2]; exact .std _
  · rw [h1, h2]; exact .ok ⟨rfl, rfl, rfl⟩

theorem mapM_concur {α β γ : Type} {R : β → γ → Prop} {f : α → Out β} {f' : α → Out γ} (h : ∀ a, Concur R (f a) (f' a)) :
    ∀ l, Concur (List.Forall₂ R) (Out.mapM f l) (Out.mapM f' l) := by
  intro l
  induction l with
  | nil => exact .ok .nil
  | cons a l ih =>
    rw [Out.mapM_cons, Out.mapM_cons]
    exact (h a).bind fun b c hbc => ih.bind fun bs cs hcs => .ok (.cons hbc hcs)

theorem keeps_same {ts : List Transfer} (h : SameStarts g g') (hi : SameIssued g g' ts) :
    Keeps dev ts g g' (fun st st' => st = st') where
  insert := by
    rintro st _ rfl a b
    unfold Stats.insertTimestep
    have e : Stats.insertOne g' a b = Stats.insertOne g a b := by
      funext e
      symm
      refine Concur.toEq ?_
      unfold Stats.insertOne
      refine (sameStarts_at h e.1).bind fun w w' hw => ?_
      rw [hw.1]
      exact .rfl' _
    rw [e]
    exact .rfl' _
  sim := by
    rintro st _ rfl gr live
    exact .rfl' _
  worst := by
    rintro t ht st _ rfl e
    unfold worstTwice
    refine (sameStarts_at h t.src.dev).bind fun w w' hw => (sameStarts_at h MESH_DEVICE).bind fun v v' hv => .ok ?_
    have e1 := hi t ht t.src.dev (Or.inl rfl) w w' hw.2.1 hw.2.2
    have e2 := hi t ht MESH_DEVICE (Or.inr rfl) v v' hv.2.1 hv.2.2
    unfold Stats.updateWorst
    rw [hw.1, hv.1]
    simp only [e1, e2]

/-- Statistics that differ in the measured cycles only. -/
def Unmeasured (e e' : Int × DevStats) : Prop := e'.1 = e.1 ∧ e'.2 = { e.2 with golden := e'.2.golden }

theorem finish_unmeasured (h : SameStarts g g') (cpt : Nat) (st : Stats) :
    Concur (List.Forall₂ Unmeasured) (st.finish g cpt) (st.finish g' cpt) := by
  unfold Stats.finish
  refine mapM_concur (fun e => ?_) st
  unfold Stats.finishOne
  refine (sameStarts_at h e.1).bind fun w w' hw => ?_
  simp only
  rw [hw.1]
  split
  · exact .ok ⟨rfl, rfl⟩
  · split
    · exact .ub
    · exact .ok ⟨rfl, rfl⟩

/-- Reports that differ in what is computed from the measured cycles. -/
def UnmeasuredReport (r r' : Report) : Prop := r'.map (fun e => (e.1, unmeasured e.2)) = r.map (fun e => (e.1, unmeasured e.2))

theorem summary_unmeasured (wl : Workload) (g' : GoldenMap) (d : Int) (s : DevStats) (n : Nat) :
    Concur (fun a b => unmeasured ⟨{ s with golden := n }, b⟩ = unmeasured ⟨s, a⟩) (computeSummary dev wl d s)
      (computeSummary dev { wl with golden := g' } d { s with golden := n }) := by
  unfold computeSummary
  simp only
  refine .same (Out.mapM (dramBytes dev) (wl.transfers.filter (countedTransfer d))) fun bs _ =>
    .same (Out.foldlM (ethOne dev) [] (wl.transfers.filter (countedTransfer d))) fun eth _ => .ok ?_
  simp only [unmeasured, List.map_map]
  rfl

theorem report_unmeasured (wl : Workload) (g' : GoldenMap) {st st' : Stats} (h : List.Forall₂ Unmeasured st st') :
    Concur UnmeasuredReport (st.report dev wl) (st'.report dev { wl with golden := g' }) := by
  unfold Stats.report
  induction h with
  | nil => exact .ok rfl
  | @cons e e' st st' he _ ih =>
    rw [Out.mapM_cons, Out.mapM_cons]
    obtain ⟨d, s⟩ := e
    obtain ⟨d', s'⟩ := e'
    obtain ⟨h1, h2⟩ := he
    simp only at h1 h2
    subst h1
    rw [h2]
    refine Concur.bind (R := fun a b : Int × DevReport => (b.1, unmeasured b.2) = (a.1, unmeasured a.2)) ?_ fun a b hab =>
      ih.bind fun as bs habs => .ok ?_
    · refine (summary_unmeasured wl g' d' s s'.golden).bind fun a b hab => .ok ?_
      simp only [hab]
    · unfold UnmeasuredReport
      rw [List.map_cons, List.map_cons, hab, habs]

/-- Results that differ in what is computed from the measured cycles. -/
def UnmeasuredRes (r r' : Result) : Prop := unmeasuredResult r' = unmeasuredResult r

theorem runSim_unmeasured (fp : FP) (ho : HashOrder) (api : Api) (en : Bool) {wl : Workload} (h : SameStarts wl.golden g')
    (hi : SameIssued wl.golden g' wl.transfers) :
    Concur UnmeasuredRes (api.runSim fp ho en wl) (api.runSim fp ho en { wl with golden := g' }) := by
  unfold Api.runSim runSingle
  rw [bind_assoc', bind_assoc']
  refine (runLoop_kept (fp := fp) (dev := api.dev) ho api.cfg.cyclesPerTimestep en (keeps_same h hi) rfl).bind
    fun e e' he => ?_
  obtain ⟨ps, he⟩ := he
  cases e with
  | finished s c =>
    cases e' with
    | limit _ _ => exact absurd he (by simp [EndKept])
    | finished s' c' =>
      obtain ⟨h1, h2⟩ := he
      simp only
      rw [← h1.stats, bind_assoc', bind_assoc']
      refine (finish_unmeasured h _ _).bind fun st st' hst => ?_
      simp only [Out.pure_eq, Out.bind_ok]
      refine (report_unmeasured wl g' hst).bind fun r r' hr => .ok ?_
      unfold UnmeasuredRes unmeasuredResult
      simp only
      exact congrArg _ hr
  | limit s c =>
    cases e' with
    | finished _ _ => exact absurd he (by simp [EndKept])
    | limit s' c' => exact .ok rfl

theorem setCongFree_unmeasured {r r' : Report} (h : UnmeasuredReport r r') :
    UnmeasuredReport (setCongFree r) (setCongFree r') := by
  have key : ∀ r : Report, (setCongFree r).map (fun e => (e.1, unmeasured e.2)) =
      setCongFree (r.map (fun e => (e.1, unmeasured e.2))) := by
    intro r
    unfold setCongFree
    rw [List.map_map, List.map_map]
    rfl
  unfold UnmeasuredReport
  rw [key, key, h]

theorem runPerf_unmeasured (fp : FP) (ho : HashOrder) (api : Api) {wl : Workload} (h : SameStarts wl.golden g')
    (hi : SameIssued wl.golden g' wl.transfers) :
    Concur UnmeasuredRes (api.runPerf fp ho wl) (api.runPerf fp ho { wl with golden := g' }) := by
  unfold Api.runPerf
  simp only
  split
  · refine (runSim_unmeasured fp ho api _ h hi).bind fun r r' hr => ?_
    cases r with
    | inr e =>
      cases r' with
      | inl _ => cases hr
      | inr e' => exact .ok hr
    | inl st =>
      cases r' with
      | inr _ => cases hr
      | inl st' =>
        simp only
        refine (runSim_unmeasured fp ho api _ h hi).bind fun q q' hq => ?_
        have hs : UnmeasuredReport st st' := Sum.inl.inj hr
        cases q with
        | inr e =>
          cases q' with
          | inl _ => cases hq
          | inr e' => exact .ok hr
        | inl _ =>
          cases q' with
          | inr _ => cases hq
          | inl _ => exact .ok (congrArg Sum.inl (setCongFree_unmeasured hs))
  · exact runSim_unmeasured fp ho api _ h hi

/-! ### Preprocessing -/

/-- Workloads that differ in the ends of the measured windows only. -/
def OtherGolden (wl wl' : Workload) : Prop := ∃ g', SameStarts wl.golden g' ∧ wl' = { wl with golden := g' }

theorem sameStarts_set {g g' : GoldenMap} (h : SameStarts g g') (k : Int) (a b b' : Nat) :
    SameStarts (g.set k (a, b)) (g'.set k (a, b')) := by
  unfold SameStarts GoldenMap.set
  have key : ∀ g : GoldenMap, (g.filter (fun e => e.1 ≠ k)).map (fun e => (e.1, e.2.1)) =
      (g.map (fun e => (e.1, e.2.1))).filter (fun e => e.1 ≠ k) := by
    intro g
    rw [List.filter_map]
    rfl
  rw [List.map_cons, List.map_cons, key, key, h]

theorem sameStarts_min {g g' : GoldenMap} (h : SameStarts g g') (n : Nat) :
    g'.foldl (fun s e => min s e.2.1) n = g.foldl (fun s e => min s e.2.1) n := by
  have key : ∀ g : GoldenMap, g.foldl (fun s e => min s e.2.1) n =
      (g.map (fun e => (e.1, e.2.1))).foldl (fun s e => min s e.2) n := by
    intro g
    rw [List.foldl_map]
  rw [key, key, h]

theorem addPhases_golden (f : Phase → Phase) (g' : GoldenMap) : ∀ (phs : List Phase) (w : Workload),
    phs.foldl (fun w ph => w.addPhase (f ph)) { w with golden := g' } =
      { phs.foldl (fun w ph => w.addPhase (f ph)) w with golden := g' } := by
  intro phs
  induction phs with
  | nil => intro w; rfl
  | cons ph phs ih =>
    intro w
    rw [List.foldl_cons, List.foldl_cons, ← ih]
    rfl

theorem addPhases_keeps_golden (f : Phase → Phase) : ∀ (phs : List Phase) (w : Workload),
    (phs.foldl (fun w ph => w.addPhase (f ph)) w).golden = w.golden := by
  intro phs
  induction phs with
  | nil => intro w; rfl
  | cons ph phs ih => intro w; rw [List.foldl_cons, ih]; rfl

theorem removeLocal_golden {wl wl' : Workload} (h : OtherGolden wl wl') :
    OtherGolden wl.removeLocalUnicastTransfers wl'.removeLocalUnicastTransfers := by
  obtain ⟨g', h, rfl⟩ := h
  refine ⟨((({} : Workload).setGoldenResultCycles g').golden), ?_, ?_⟩
  · unfold Workload.removeLocalUnicastTransfers
    rw [addPhases_keeps_golden (fun ph => { transfers := ph.transfers.filter Workload.keepNonLocal })]
    unfold Workload.setGoldenResultCycles
    simp only
    rw [sameStarts_min h]
    exact sameStarts_set h _ _ _ _
  · unfold Workload.removeLocalUnicastTransfers
    exact addPhases_golden (fun ph => { transfers := ph.transfers.filter Workload.keepNonLocal }) _ _
      (({} : Workload).setGoldenResultCycles wl.golden)

theorem mapTransfersM_golden {f : Transfer → Out Transfer} {wl wl' : Workload} (h : OtherGolden wl wl') :
    Concur OtherGolden (wl.mapTransfersM f) (wl'.mapTransfersM f) := by
  obtain ⟨g', h, rfl⟩ := h
  unfold Workload.mapTransfersM
  exact .same _ fun phs _ => .ok ⟨g', h, rfl⟩

theorem preprocess_golden (fp : FP) (api : Api) {wl wl' : Workload} (h : OtherGolden wl wl') :
    Concur OtherGolden (api.preprocess fp wl) (api.preprocess fp wl') := by
  unfold Api.preprocess
  refine Concur.bind (R := OtherGolden) ?_ fun a b hab => Concur.bind (R := OtherGolden) ?_ fun c d hcd => ?_
  · split
    · exact mapTransfersM_golden h
    · exact .ok h
  · split
    · exact mapTransfersM_golden hab
    · exact .ok hab
  · split
    · exact .ok (removeLocal_golden hcd)
    · exact .ok hcd

/-- Complete runs. -/
theorem runNPE_unmeasured (fp : FP) (ho : HashOrder) (api : Api) {wl : Workload} {g' : GoldenMap}
    (h : SameStarts wl.golden g')
    (hi : ∀ w w', api.preprocess fp wl = .ok w → api.preprocess fp { wl with golden := g' } = .ok w' →
      SameIssued w.golden w'.golden w.transfers) :
    Concur UnmeasuredRes (api.runNPE fp ho wl) (api.runNPE fp ho { wl with golden := g' }) := by
  unfold Api.runNPE
  have hp := (preprocess_golden fp api (wl := wl) (wl' := { wl with golden := g' }) ⟨g', h, rfl⟩).attach
  refine hp.bind fun w w' hw => ?_
  obtain ⟨⟨k, hk, rfl⟩, hx, hy⟩ := hw
  have hi := hi _ _ hx hy
  have e : Workload.validate api.dev { w with golden := k } = w.validate api.dev := rfl
  rw [e]
  refine .same _ fun v _ => ?_
  split
  · unfold catchNpe
    have := runPerf_unmeasured fp ho api hk hi
    generalize api.runPerf fp ho w = x at this
    generalize api.runPerf fp ho { w with golden := k } = y at this
    cases this with
    | ok h => exact .ok h
    | exc c => exact .ok rfl
    | std e => exact .std e
    | exit => exact .exit
    | ub => exact .ub
    | diverge => exact .diverge
  · exact .ok rfl

/-! ### Any windows -/

/-- Tables of windows for the same chips. -/
def SameDevices (g g' : GoldenMap) : Prop := ∀ d, (g.lookup d).isSome = (g'.lookup d).isSome

theorem sameDevices_at {g g' : GoldenMap} (h : SameDevices g g') (d : Int) :
    Concur (fun w w' => g.lookup d = some w ∧ g'.lookup d = some w') (g.at d) (g'.at d) := by
  have := h d
  unfold GoldenMap.at
  cases h1 : g.lookup d with
  | none =>
    cases h2 : g'.lookup d with
    | none => exact .std _
    | some w => rw [h1, h2] at this; cases this
  | some w =>
    cases h2 : g'.lookup d with
    | none => rw [h1, h2] at this; cases this
    | some w => exact .ok ⟨rfl, rfl⟩

/-- All devices of the statistics have a window. -/
def Windowed (g : GoldenMap) (st : Stats) : Prop := ∀ e ∈ st, (g.lookup e.1).isSome

theorem insert_windowed {st : Stats} (h : Windowed g st) (a b : Nat) :
    ∃ st', st.insertTimestep g a b = .ok st' ∧ Windowed g st' := by
  unfold Stats.insertTimestep
  induction st with
  | nil => exact ⟨[], rfl, fun e he => by cases he⟩
  | cons e st ih =>
    obtain ⟨st', h1, h2⟩ := ih fun e he => h e (List.mem_cons_of_mem _ he)
    have he := h e (List.mem_cons_self ..)
    obtain ⟨w, hw⟩ := Option.isSome_iff_exists.mp he
    rw [Out.mapM_cons, h1]
    have : ∃ e', Stats.insertOne g a b e = .ok e' ∧ e'.1 = e.1 := by
      unfold Stats.insertOne GoldenMap.at
      rw [hw]
      simp only [Out.bind_ok]
      split
      · exact ⟨_, rfl, rfl⟩
      · exact ⟨_, rfl, rfl⟩
    obtain ⟨e', h3, h4⟩ := this
    rw [h3]
    refine ⟨e' :: st', rfl, fun x hx => ?_⟩
    rcases List.mem_cons.mp hx with rfl | hx
    · rw [h4]; exact he
    · exact h2 x hx

theorem finish_windowed {st : Stats} (h : Windowed g st) {cpt : Nat} (hc : cpt ≠ 0) :
    ∃ st', st.finish g cpt = .ok st' := by
  unfold Stats.finish
  induction st with
  | nil => exact ⟨[], rfl⟩
  | cons e st ih =>
    obtain ⟨st', h1⟩ := ih fun e he => h e (List.mem_cons_of_mem _ he)
    obtain ⟨w, hw⟩ := Option.isSome_iff_exists.mp (h e (List.mem_cons_self ..))
    rw [Out.mapM_cons, h1]
    unfold Stats.finishOne GoldenMap.at
    rw [hw]
    simp only [Out.bind_ok, if_neg hc]
    split
    · exact ⟨_, rfl⟩
    · exact ⟨_, rfl⟩

theorem modify_windowed {st : Stats} (h : Windowed g st) {d : Int} (hd : (g.lookup d).isSome) (f : DevStats → DevStats) :
    Windowed g (st.modify d f) := by
  induction st with
  | nil =>
    intro e he
    rw [Stats.modify, List.mem_singleton] at he
    rw [he]; exact hd
  | cons a st ih =>
    intro e he
    rw [Stats.modify] at he
    split at he
    · rcases List.mem_cons.mp he with rfl | he
      · exact hd
      · exact h e (List.mem_cons_of_mem _ he)
    · rcases List.mem_cons.mp he with rfl | he
      · exact h _ (List.mem_cons_self ..)
      · exact ih (fun e he => h e (List.mem_cons_of_mem _ he)) e he

theorem updateWorst_windowed {st : Stats} (h : Windowed g st) {d : Int} (hd : (g.lookup d).isSome) (o e : Nat)
    (w : Nat × Nat) : Windowed g (st.updateWorst d o e w) := by
  unfold Stats.updateWorst
  split
  · exact modify_windowed h hd _
  · exact h

theorem keeps_windowed {ts : List Transfer} (h : SameDevices g g') :
    Keeps dev ts g g' (fun st st' => Windowed g st ∧ Windowed g' st') where
  insert := by
    rintro st st' ⟨h1, h2⟩ a b
    obtain ⟨s, e, hs⟩ := insert_windowed h1 a b
    obtain ⟨s', e', hs'⟩ := insert_windowed h2 a b
    rw [e, e']
    exact .ok ⟨hs, hs'⟩
  sim := by
    rintro st st' ⟨h1, h2⟩ gr live
    unfold Stats.updateSim
    refine .same _ fun la _ => .same _ fun na _ => .ok ⟨fun e he => ?_, fun e he => ?_⟩
    · obtain ⟨x, hx, rfl⟩ := List.mem_map.mp he
      exact h1 x hx
    · obtain ⟨x, hx, rfl⟩ := List.mem_map.mp he
      exact h2 x hx
  worst := by
    rintro t ht st st' ⟨h1, h2⟩ e
    unfold worstTwice
    refine (sameDevices_at h t.src.dev).bind fun w w' hw => (sameDevices_at h MESH_DEVICE).bind fun v v' hv => .ok ?_
    exact ⟨updateWorst_windowed (updateWorst_windowed h1 (by rw [hw.1]; rfl) _ _ _) (by rw [hv.1]; rfl) _ _ _,
      updateWorst_windowed (updateWorst_windowed h2 (by rw [hw.2]; rfl) _ _ _) (by rw [hv.2]; rfl) _ _ _⟩

/-- What happens to the transfers does not depend on the windows. -/
theorem runSingle_windows (ho : HashOrder) {cpt : Nat} (hc : cpt ≠ 0) (en : Bool) {wl : Workload}
    (h : SameDevices wl.golden g') (hw : ∀ d ∈ dev.deviceIDs ++ [MESH_DEVICE], (wl.golden.lookup d).isSome) :
    Concur (fun r r' => (∃ s s' st st', r = .inl (s, st) ∧ r' = .inl (s', st') ∧ s' = { s with stats := s'.stats }) ∨
      ∃ e, r = .inr e ∧ r' = .inr e) (runSingle fp dev ho cpt en wl)
      (runSingle fp dev ho cpt en { wl with golden := g' }) := by
  unfold runSingle
  have h1 : Windowed wl.golden (Stats.init dev) := by
    intro e he
    obtain ⟨d, hd, rfl⟩ := List.mem_map.mp he
    exact hw d hd
  have h2 : Windowed g' (Stats.init dev) := fun e he => by rw [← h]; exact h1 e he
  refine (runLoop_kept (fp := fp) (dev := dev) ho cpt en (keeps_windowed h) ⟨h1, h2⟩).bind fun e e' he => ?_
  obtain ⟨ps, he⟩ := he
  cases e with
  | finished s c =>
    cases e' with
    | limit _ _ => exact absurd he (by simp [EndKept])
    | finished s' c' =>
      obtain ⟨h3, h4⟩ := he
      simp only
      obtain ⟨st, e1⟩ := finish_windowed h3.stats.1 hc
      obtain ⟨st', e2⟩ := finish_windowed h3.stats.2 hc
      rw [e1, e2]
      exact .ok (Or.inl ⟨s, s', st, st', rfl, rfl, h3.eq⟩)
  | limit s c =>
    cases e' with
    | finished _ _ => exact absurd he (by simp [EndKept])
    | limit s' c' => exact .ok (Or.inr ⟨_, rfl, rfl⟩)

/-! ### Issue cycles after preprocessing -/

theorem removeLocal_offsets (wl : Workload) :
    ∀ t' ∈ wl.removeLocalUnicastTransfers.transfers, ∃ t ∈ wl.transfers, t'.offset = t.offset := by
  intro t' ht'
  obtain ⟨ph', hph', ht'⟩ := List.mem_flatMap.mp ht'
  have h1 := Workload.foldl_addPhase_map Transfer.offset (fun _ _ _ => rfl)
    (wl.phases.map fun ph => ({ transfers := ph.transfers.filter Workload.keepNonLocal } : Phase))
    (({} : Workload).setGoldenResultCycles wl.golden)
  rw [List.foldl_map] at h1
  have h2 : ph'.transfers.map Transfer.offset ∈
      wl.removeLocalUnicastTransfers.phases.map fun p => p.transfers.map Transfer.offset :=
    List.mem_map.mpr ⟨ph', hph', rfl⟩
  unfold Workload.removeLocalUnicastTransfers at h2
  rw [h1, List.mem_append] at h2
  rcases h2 with h2 | h2
  · simp [Workload.setGoldenResultCycles] at h2
  · rw [List.map_map] at h2
    obtain ⟨ph, hph, e⟩ := List.mem_map.mp h2
    have h3 : t'.offset ∈ ph'.transfers.map Transfer.offset := List.mem_map_of_mem ht'
    rw [← e] at h3
    obtain ⟨t, ht, e⟩ := List.mem_map.mp h3
    exact ⟨t, List.mem_flatMap.mpr ⟨ph, hph, List.mem_of_mem_filter ht⟩, e.symm⟩

/-- Without scaling, preprocessing leaves issue cycles and windows, except that it may form the window of the mesh again. -/
theorem preprocess_issue {fp : FP} {api : Api} (hs : api.cfg.scaleSchedule = 0) {wl w : Workload}
    (h : api.preprocess fp wl = .ok w) :
    (∀ t' ∈ w.transfers, ∃ t ∈ wl.transfers, t'.offset = t.offset) ∧
    (w.golden = wl.golden ∨ w.golden = (({} : Workload).setGoldenResultCycles wl.golden).golden) := by
  unfold Api.preprocess at h
  obtain ⟨w1, h1, h⟩ := Out.bind_eq_ok.mp h
  obtain ⟨w2, h2, h⟩ := Out.bind_eq_ok.mp h
  rw [if_neg (by simp [hs])] at h2
  cases h2
  have e1 : (∀ t' ∈ w1.transfers, ∃ t ∈ wl.transfers, t'.offset = t.offset) ∧ w1.golden = wl.golden := by
    split at h1
    · unfold Workload.inferInjectionRates Workload.mapTransfersM at h1
      obtain ⟨phs, h1, h⟩ := Out.bind_eq_ok.mp h1
      rw [← Out.ok.inj h]
      refine ⟨fun t' ht' => ?_, rfl⟩
      obtain ⟨ph', hph', ht'⟩ := List.mem_flatMap.mp ht'
      rw [Out.mapM_eq_ok] at h1
      obtain ⟨ph, hph, h2⟩ := forall2_mem h1 hph'
      obtain ⟨ts, h3, h2⟩ := Out.bind_eq_ok.mp h2
      rw [← Out.ok.inj h2] at ht'
      rw [Out.mapM_eq_ok] at h3
      obtain ⟨t, ht, h4⟩ := forall2_mem h3 ht'
      obtain ⟨_, _, h4⟩ := Out.bind_eq_ok.mp h4
      refine ⟨t, List.mem_flatMap.mpr ⟨ph, hph, ht⟩, ?_⟩
      rw [← Out.ok.inj h4]
    · cases h1
      exact ⟨fun t ht => ⟨t, ht, rfl⟩, rfl⟩
  cases h
  split
  · refine ⟨fun t ht => ?_, Or.inr ?_⟩
    · obtain ⟨t1, h1, e⟩ := removeLocal_offsets w1 t ht
      obtain ⟨t0, h0, e0⟩ := e1.1 t1 h1
      exact ⟨t0, h0, e.trans e0⟩
    · unfold Workload.removeLocalUnicastTransfers
      rw [addPhases_keeps_golden (fun ph => { transfers := ph.transfers.filter Workload.keepNonLocal }), e1.2]
  · exact ⟨e1.1, Or.inl e1.2⟩

/-- The windows that a workload file gives. -/
theorem file_windows {n : Nat} (hn : n < 4294967296) {wl : Workload}
    (h : wl.golden = (({} : Workload).setGoldenResultCycles [(0, 0, n)]).golden ∨
      wl.golden = (({} : Workload).setGoldenResultCycles (({} : Workload).setGoldenResultCycles [(0, 0, n)]).golden).golden) :
    wl.golden = [(MESH_DEVICE, 0, n), (0, 0, n)] := by
  rcases h with h | h
  · rw [h]
    simp [Workload.setGoldenResultCycles, GoldenMap.set, MESH_DEVICE, Nat.mod_eq_of_lt hn]
  · rw [h]
    simp [Workload.setGoldenResultCycles, GoldenMap.set, MESH_DEVICE, Nat.mod_eq_of_lt hn]

end

end NPE
