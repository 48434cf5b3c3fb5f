import Verif.Proofs.Phases
import Verif.Proofs.Preprocess
import Verif.Model.Document

/-
Statistics, files, validation and preprocessing do not depend on how transfers are divided into phases.
-/

namespace NPE
open NPE.Spec

/-! ### Files -/

theorem components_bare (ts : List TState) (ids : List Int) :
    components (ts.map (bare true)) ids = components ts ids >>= fun l => .ok (l.map (bare true)) := by
  unfold components
  have e : (stateAt (ts.map (bare true))) = fun id => stateAt ts id >>= fun t => .ok (bare true t) := by
    funext id
    unfold stateAt
    split
    · rfl
    · rw [List.getElem?_map]
      cases ts[id.toNat]? <;> rfl
  rw [e, mapM_post]
  simp only [bind_assoc', Out.bind_ok, Out.pure_eq]
  congr 1
  funext l
  rw [sortBy_map (fun a b : TState => decide (a.params.groupIdx ≤ b.params.groupIdx)) _ (bare true) (fun a b => rfl)]

theorem emitGroup_bare (dev : Device) (ts : List TState) (region : Option Region) (e : Int × List Int) :
    emitGroup dev (ts.map (bare true)) region e = emitGroup dev ts region e := by
  unfold emitGroup
  rw [components_bare]
  simp only [bind_assoc', Out.bind_ok]
  congr 1
  funext _
  congr 1
  funext l
  rw [List.head?_map, List.getLast?_map, mapM_map']
  cases l.head? <;> cases l.getLast? <;> rfl

theorem timelineGroups_bare (wl : Workload) (ts : List TState) :
    timelineGroups wl (ts.map (bare true)) = timelineGroups wl ts := by
  unfold timelineGroups
  rw [List.foldl_map]
  rfl

theorem serializeV1_bare (fp : FP) (dev : Device) (ord : List (Int × List Int) → List (Int × List Int)) (wl : Workload)
    (ts : List TState) (steps : List TimestepStats) (region : Option Region) :
    serializeV1 fp dev ord wl (ts.map (bare true)) steps region = serializeV1 fp dev ord wl ts steps region := by
  unfold serializeV1
  rw [timelineGroups_bare, show emitGroup dev (ts.map (bare true)) region = emitGroup dev ts region from
    funext fun e => emitGroup_bare dev ts region e]

theorem documentV0_bare (fp : FP) (cfg : Config) (dev : Device) (wl : Workload) (ts : List TState) (st : DevStats)
    (sm : Summary) : documentV0 fp cfg dev ⟨wl, ts.map (bare true), st, sm⟩ = documentV0 fp cfg dev ⟨wl, ts, st, sm⟩ := by
  unfold documentV0
  simp only
  rw [mapM_map']
  rfl

theorem documentV1_bare (fp : FP) (cfg : Config) (dev : Device) (ord : List (Int × List Int) → List (Int × List Int))
    (topology : InputFile) (wl : Workload) (ts : List TState) (st : DevStats) (sm : Summary) (region : Option Region) :
    documentV1 fp cfg dev ord topology ⟨wl, ts.map (bare true), st, sm⟩ region =
      documentV1 fp cfg dev ord topology ⟨wl, ts, st, sm⟩ region := by
  unfold documentV1
  simp only [serializeV1_bare]

theorem emitFiles_bare (fp : FP) (cfg : Config) (dev : Device) (ord : List (Int × List Int) → List (Int × List Int))
    (tc : TimelineConfig) (wl : Workload) (ts : List TState) (rep : Report) :
    emitFiles fp cfg dev ord tc wl (ts.map (bare true)) rep = emitFiles fp cfg dev ord tc wl ts rep := by
  unfold emitFiles splitFiles
  simp only [documentV0_bare, documentV1_bare]

variable {wl wl' : Workload}

theorem serializeV1_groups (h : wl'.numTransferGroups = wl.numTransferGroups) (fp : FP) (dev : Device)
    (ord : List (Int × List Int) → List (Int × List Int)) (ts : List TState) (steps : List TimestepStats)
    (region : Option Region) : serializeV1 fp dev ord wl' ts steps region = serializeV1 fp dev ord wl ts steps region := by
  have e1 : timelineGroups wl' ts = timelineGroups wl ts := by unfold timelineGroups; rw [h]
  have e2 : checkGroup wl' = checkGroup wl := by funext gs all e; unfold checkGroup; rw [h]
  have e3 : checkGroups wl' = checkGroups wl := by funext gs; unfold checkGroups; rw [e2]
  unfold serializeV1
  rw [e1, e3]

theorem documentV1_groups (hg : wl'.numTransferGroups = wl.numTransferGroups) (hz : wl'.zones = wl.zones) (fp : FP)
    (cfg : Config) (dev : Device) (ord : List (Int × List Int) → List (Int × List Int)) (topology : InputFile)
    (ts : List TState) (st : DevStats) (sm : Summary) (region : Option Region) :
    documentV1 fp cfg dev ord topology ⟨wl', ts, st, sm⟩ region =
      documentV1 fp cfg dev ord topology ⟨wl, ts, st, sm⟩ region := by
  unfold documentV1 zonesJson
  simp only [serializeV1_groups hg, hz]

theorem emitFiles_groups (hg : wl'.numTransferGroups = wl.numTransferGroups) (hz : wl'.zones = wl.zones) (fp : FP)
    (cfg : Config) (dev : Device) (ord : List (Int × List Int) → List (Int × List Int)) (tc : TimelineConfig)
    (ts : List TState) (rep : Report) : emitFiles fp cfg dev ord tc wl' ts rep = emitFiles fp cfg dev ord tc wl ts rep := by
  have e : ∀ st sm, documentV0 fp cfg dev ⟨wl', ts, st, sm⟩ = documentV0 fp cfg dev ⟨wl, ts, st, sm⟩ := fun _ _ => rfl
  unfold emitFiles splitFiles
  simp only [documentV1_groups hg hz, e]

/-! ### Statistics -/

variable {k : Bool}

theorem report_bare (dev : Device) (h : SameTransfers k wl.transfers wl'.transfers) (st : Stats) :
    st.report dev wl' = st.report dev wl := by
  have e : ∀ d s, computeSummary dev wl' d s = computeSummary dev wl d s := by
    intro d s
    unfold computeSummary
    have hf := h.filter (f := countedTransfer d) fun t p e z => rfl
    simp only
    rw [hf.mapM (f := dramBytes dev) fun t p e z => rfl, hf.foldlM (f := ethOne dev) (fun c t p e z => rfl) []]
  unfold Stats.report
  simp only [e]

theorem runSimFiles_bare (fp : FP) (api : Api) (ho : HashOrder) (ord : List (Int × List Int) → List (Int × List Int))
    (tc : TimelineConfig) (en : Bool) (h : Regrouped true wl wl') :
    api.runSimFiles fp ho ord tc en wl = api.runSimFiles fp ho ord tc en wl' := by
  refine Concur.toEq ?_
  unfold Api.runSimFiles
  refine (runSingle_bare (fp := fp) (dev := api.dev) ho api.cfg.cyclesPerTimestep en h).bind fun r r' hr => ?_
  rcases hr with ⟨s, s', st, rfl, rfl, hs⟩ | ⟨e, rfl, rfl⟩
  · simp only
    rw [report_bare api.dev h.transfers]
    refine .same _ fun rep _ => ?_
    rw [emitFiles_groups (h.groups rfl) (h.zones rfl), ← emitFiles_bare fp api.cfg api.dev ord tc wl s.ts, ← hs, emitFiles_bare]
    exact .rfl' _
  · exact .rfl' _

theorem runSim_bare (fp : FP) (api : Api) (ho : HashOrder) (en : Bool) (h : Regrouped k wl wl') :
    api.runSim fp ho en wl = api.runSim fp ho en wl' := by
  refine Concur.toEq ?_
  unfold Api.runSim
  refine (runSingle_bare (fp := fp) (dev := api.dev) ho api.cfg.cyclesPerTimestep en h).bind fun r r' hr => ?_
  rcases hr with ⟨s, s', st, rfl, rfl, hs⟩ | ⟨e, rfl, rfl⟩
  · simp only
    rw [report_bare api.dev h.transfers]
    exact .rfl' _
  · exact .rfl' _

/-! ### Preprocessing -/

/-- Phases numbered from zero. -/
def Counted (phs : List Phase) : Prop := phs.map (·.id) = (List.range phs.length).map fun (k : Nat) => (k : Int)

/-- Workloads with numbered phases that differ in phases only. -/
structure Redivided (k : Bool) (wl wl' : Workload) : Prop extends Regrouped k wl wl' where
  gbl : wl'.gblTransferId = wl.gblTransferId
  left : Counted wl.phases
  right : Counted wl'.phases

theorem Concur.trans {α β γ : Type} {R : α → β → Prop} {S : β → γ → Prop} {x : Out α} {y : Out β} {z : Out γ}
    (h : Concur R x y) (h' : Concur S y z) : Concur (fun a c => ∃ b, R a b ∧ S b c) x z := by
  cases h with
  | ok h => cases h' with | ok h' => exact .ok ⟨_, h, h'⟩
  | exc c => cases h'; exact .exc c
  | std e => cases h'; exact .std e
  | exit => cases h'; exact .exit
  | ub => cases h'; exact .ub
  | diverge => cases h'; exact .diverge

theorem Concur.symm {α β : Type} {R : α → β → Prop} {x : Out α} {y : Out β} (h : Concur R x y) :
    Concur (fun b a => R a b) y x := by
  cases h with
  | ok h => exact .ok h
  | exc c => exact .exc c
  | std e => exact .std e
  | exit => exact .exit
  | ub => exact .ub
  | diverge => exact .diverge

theorem mapM_append' {α β : Type} (f : α → Out β) : ∀ l l' : List α,
    Out.mapM f (l ++ l') = Out.mapM f l >>= fun a => Out.mapM f l' >>= fun b => .ok (a ++ b) := by
  intro l l'
  induction l with
  | nil =>
    simp only [List.nil_append, Out.mapM, Out.bind_ok]
    cases Out.mapM f l' <;> rfl
  | cons t l ih =>
    rw [List.cons_append, Out.mapM_cons, Out.mapM_cons, ih]
    simp only [bind_assoc', Out.bind_ok, List.cons_append]

theorem mapPhases_flat (f : Transfer → Out Transfer) : ∀ phs : List Phase,
    Concur (fun phs' ts => phs'.flatMap (·.transfers) = ts ∧ phs'.map (·.id) = phs.map (·.id))
      (Out.mapM (fun (ph : Phase) => do
        let ts ← Out.mapM f ph.transfers
        return { ph with transfers := ts }) phs) (Out.mapM f (phs.flatMap (·.transfers))) := by
  intro phs
  induction phs with
  | nil => exact .ok ⟨rfl, rfl⟩
  | cons ph phs ih =>
    rw [Out.mapM_cons, List.flatMap_cons, mapM_append', bind_assoc']
    refine .same _ fun ts _ => ?_
    rw [Out.pure_eq, Out.bind_ok]
    refine ih.bind fun a b hab => .ok ⟨?_, ?_⟩
    · rw [List.flatMap_cons, hab.1]
    · rw [List.map_cons, List.map_cons, hab.2]

theorem mapM_noPhase {f : Transfer → Out Transfer}
    (hf : ∀ t p e z, noPhase k { t with phaseId := p, eventType := e, zonePath := z } = noPhase k t → Concur (fun a b => noPhase k b = noPhase k a) (f t) (f { t with phaseId := p, eventType := e, zonePath := z })) :
    ∀ {l l' : List Transfer}, List.Forall₂ (fun t t' => Relabelled k t t') l l' →
      Concur (SameTransfers k) (Out.mapM f l) (Out.mapM f l') := by
  intro l l' h
  induction h with
  | nil => exact .ok rfl
  | cons ht _ ih =>
    obtain ⟨p, e, z, rfl, kt⟩ := ht
    rw [Out.mapM_cons, Out.mapM_cons]
    refine (hf _ p e z kt).bind fun a b hab => ih.bind fun c d hcd => .ok ?_
    unfold SameTransfers
    rw [List.map_cons, List.map_cons, hab, hcd]

theorem counted_of_ids {phs phs' : List Phase} (h : Counted phs) (e : phs'.map (·.id) = phs.map (·.id)) : Counted phs' := by
  unfold Counted at h ⊢
  have := congrArg List.length e
  rw [List.length_map, List.length_map] at this
  rw [e, this, h]

theorem mapTransfersM_bare {f : Transfer → Out Transfer}
    (hf : ∀ t p e z, noPhase k { t with phaseId := p, eventType := e, zonePath := z } = noPhase k t → Concur (fun a b => noPhase k b = noPhase k a) (f t) (f { t with phaseId := p, eventType := e, zonePath := z })) (h : Redivided k wl wl') :
    Concur (Redivided k) (wl.mapTransfersM f) (wl'.mapTransfersM f) := by
  unfold Workload.mapTransfersM
  refine (((mapPhases_flat f wl.phases).trans (mapM_noPhase hf h.transfers.forall₂)).trans
    (mapPhases_flat f wl'.phases).symm).bind fun a b hab => .ok ?_
  obtain ⟨ts', ⟨ts, ⟨h1, h2⟩, h3⟩, h4, h5⟩ := hab
  refine ⟨⟨?_, h.golden, h.groups, h.zones⟩, h.gbl, counted_of_ids h.left h2, counted_of_ids h.right h5⟩
  show SameTransfers k (a.flatMap (·.transfers)) (b.flatMap (·.transfers))
  rw [h1, h4]
  exact h3

/-- Everything of a transfer except identifiers and what `noPhase` removes. -/
def plain (k : Bool) (t : Transfer) : Transfer := { noPhase k t with id := 0 }

theorem assignIds_noPhase (p : Int) : ∀ (n : Nat) (l : List Transfer),
    (Workload.assignIds p n l).map (noPhase k) = Workload.assignIds 0 n (l.map (plain k)) := by
  intro n l
  induction l generalizing n with
  | nil => rfl
  | cons t l ih =>
    rw [Workload.assignIds, List.map_cons, ih, List.map_cons, Workload.assignIds]
    rfl

theorem assignIds_append (p : Int) : ∀ (n : Nat) (l l' : List Transfer),
    Workload.assignIds p n (l ++ l') = Workload.assignIds p n l ++ Workload.assignIds p (n + l.length) l' := by
  intro n l l'
  induction l generalizing n with
  | nil => rfl
  | cons t l ih =>
    rw [List.cons_append, Workload.assignIds, Workload.assignIds, ih, List.cons_append, List.length_cons]
    congr 3
    omega

/-- Phases added one by one. -/
theorem foldl_addPhase_flat : ∀ (phs : List Phase) (w : Workload),
    (phs.foldl Workload.addPhase w).transfers.map (noPhase k) =
      w.transfers.map (noPhase k) ++ Workload.assignIds 0 w.gblTransferId ((phs.flatMap (·.transfers)).map (plain k)) ∧
    (phs.foldl Workload.addPhase w).gblTransferId = w.gblTransferId + (phs.flatMap (·.transfers)).length ∧
    (phs.foldl Workload.addPhase w).golden = w.golden ∧
    (phs.foldl Workload.addPhase w).numTransferGroups = w.numTransferGroups ∧
    (phs.foldl Workload.addPhase w).zones = w.zones ∧
    (Counted w.phases → Counted (phs.foldl Workload.addPhase w).phases) := by
  intro phs
  induction phs with
  | nil => intro w; simp [Workload.assignIds]
  | cons ph phs ih =>
    intro w
    obtain ⟨h1, h2, h3, h4, h5, h6⟩ := ih (w.addPhase ph)
    rw [List.foldl_cons]
    refine ⟨?_, ?_, h3, h4, h5, fun hc => h6 ?_⟩
    · rw [h1, Workload.transfers_addPhase, List.map_append, assignIds_noPhase, List.flatMap_cons, List.map_append,
        assignIds_append, List.append_assoc, List.length_map]
      rfl
    · rw [h2, List.flatMap_cons, List.length_append, ← Nat.add_assoc]
      rfl
    · unfold Counted Workload.addPhase at *
      simp only [List.map_append, List.length_append, List.length_singleton, List.range_succ, List.map_cons, List.map_nil, hc]

theorem SameTransfers.plain {l l' : List Transfer} (h : SameTransfers k l l') : l'.map (plain k) = l.map (plain k) := by
  have key : ∀ l : List Transfer, (l.map (noPhase k)).map (NPE.plain k) = l.map (NPE.plain k) := by
    intro l
    rw [List.map_map]
    apply List.map_congr_left
    intro t _
    simp only [Function.comp, NPE.plain, noPhase_twice]
  rw [← key, ← key l, h]

theorem removeLocal_bare (h : Redivided k wl wl') :
    Redivided k wl.removeLocalUnicastTransfers wl'.removeLocalUnicastTransfers := by
  have key : ∀ wl : Workload, wl.removeLocalUnicastTransfers =
      (wl.phases.map fun ph => ({ transfers := ph.transfers.filter Workload.keepNonLocal } : Phase)).foldl
        Workload.addPhase (({} : Workload).setGoldenResultCycles wl.golden) := by
    intro wl
    rw [List.foldl_map]
    rfl
  have kf : ∀ wl : Workload, ((wl.phases.map fun ph =>
      ({ transfers := ph.transfers.filter Workload.keepNonLocal } : Phase)).flatMap (·.transfers)) =
      wl.transfers.filter Workload.keepNonLocal := by
    intro wl
    unfold Workload.transfers
    generalize wl.phases = l
    induction l with
    | nil => rfl
    | cons a l ih => rw [List.map_cons, List.flatMap_cons, ih, List.flatMap_cons, List.filter_append]
  have ht := h.transfers.filter (f := Workload.keepNonLocal) fun t p e z => rfl
  have c0 : ∀ g, Counted (({} : Workload).setGoldenResultCycles g).phases := fun g => rfl
  rw [key, key, h.golden]
  obtain ⟨a1, a2, a3, a4, a5, a6⟩ := foldl_addPhase_flat (wl.phases.map fun ph =>
      ({ transfers := ph.transfers.filter Workload.keepNonLocal } : Phase)) (({} : Workload).setGoldenResultCycles wl.golden)
  obtain ⟨b1, b2, b3, b4, b5, b6⟩ := foldl_addPhase_flat (wl'.phases.map fun ph =>
      ({ transfers := ph.transfers.filter Workload.keepNonLocal } : Phase)) (({} : Workload).setGoldenResultCycles wl.golden)
  rw [kf] at a1 a2 b1 b2
  refine ⟨⟨?_, b3.trans a3.symm, fun _ => b4.trans a4.symm, fun _ => b5.trans a5.symm⟩, ?_, a6 (c0 _), b6 (c0 _)⟩
  · unfold SameTransfers
    rw [a1, b1, ht.plain]
  · rw [a2, b2, ht.length]

theorem preprocess_bare (fp : FP) (api : Api) (h : Redivided k wl wl') :
    Concur (Redivided k) (api.preprocess fp wl) (api.preprocess fp wl') := by
  unfold Api.preprocess
  refine Concur.bind (R := Redivided k) ?_ fun a b hab => Concur.bind (R := Redivided k) ?_ fun c d hcd => ?_
  · split
    · exact mapTransfersM_bare (fun t p e z kt => .same (api.dev.getSrcInjectionRate t.src) fun r _ => .ok (by simpa [noPhase] using kt)) h
    · exact .ok h
  · split
    · exact mapTransfersM_bare (fun t p e z kt => .same (Workload.scaleOffset fp _ t.offset) fun r _ => .ok (by simpa [noPhase] using kt)) hab
    · exact .ok hab
  · split
    · exact .ok (removeLocal_bare hcd)
    · exact .ok hcd

/-! ### Validation -/

/-- The same state apart from the phases seen, which are `B`. -/
def SameVal (B : List Bool) (s s' : Workload.ValState) : Prop :=
  s.phaseBits = B ∧ s'.transferBits = s.transferBits ∧ s'.errors = s.errors

theorem validateTransfer_same (dev : Device) (gbl : Nat) {B : List Bool} {s s' : Workload.ValState} (h : SameVal B s s')
    (t : Transfer) : Concur (SameVal B) (Workload.validateTransfer dev gbl s t) (Workload.validateTransfer dev gbl s' t) := by
  obtain ⟨h1, h2, h3⟩ := h
  unfold Workload.validateTransfer
  rw [h2, h3]
  split
  · exact .ok ⟨h1, rfl, rfl⟩
  · split
    · exact .ub
    · split
      · exact .ub
      · exact .ok ⟨h1, rfl, rfl⟩
      · exact .same _ fun v _ => .ok ⟨h1, rfl, rfl⟩

theorem foldlM_append' {α β : Type} (f : β → α → Out β) : ∀ (l l' : List α) (b : β),
    Out.foldlM f b (l ++ l') = Out.foldlM f b l >>= fun c => Out.foldlM f c l' := by
  intro l l'
  induction l with
  | nil => intro b; rfl
  | cons a l ih =>
    intro b
    rw [List.cons_append, Out.foldlM_cons, Out.foldlM_cons, bind_assoc']
    congr 1
    funext c
    exact ih c

theorem validate_flat (dev : Device) (P gbl : Nat) : ∀ (phs : List Phase) (k : Nat) (B : List Bool) (s s' : Workload.ValState),
    phs.map (·.id) = (List.range' k phs.length).map (fun (k : Nat) => (k : Int)) → k + phs.length ≤ P →
    (∀ j, k ≤ j → j < P → B[j]? = some false) → SameVal B s s' →
    Concur (fun s s' => s'.errors = s.errors) (Out.foldlM (Workload.validatePhase dev P gbl) s phs)
      (Out.foldlM (Workload.validateTransfer dev gbl) s' (phs.flatMap (·.transfers))) := by
  intro phs
  induction phs with
  | nil => intro k B s s' _ _ _ h; exact .ok h.2.2
  | cons ph phs ih =>
    intro k B s s' hid hk hB h
    rw [List.map_cons, List.length_cons, List.range'_succ, List.map_cons, List.cons.injEq] at hid
    rw [List.length_cons] at hk
    rw [Out.foldlM_cons, List.flatMap_cons, foldlM_append']
    have hp : Workload.validatePhase dev P gbl s ph = Out.foldlM (Workload.validateTransfer dev gbl)
        { s with phaseBits := B.set k true } ph.transfers := by
      unfold Workload.validatePhase
      rw [if_neg (by rw [hid.1]; omega), hid.1, h.1]
      simp only [Int.toNat_natCast, hB k (le_refl _) (by omega)]
    rw [hp]
    refine (Concur.foldlM (R := SameVal (B.set k true)) (fun a b e hab => validateTransfer_same dev gbl hab e) ph.transfers
      { s with phaseBits := B.set k true } s' ⟨rfl, h.2.1, h.2.2⟩).bind fun a b hab => ?_
    refine ih (k + 1) _ a b hid.2 (by omega) (fun j h1 h2 => ?_) hab
    rw [List.getElem?_set_ne (by omega)]
    exact hB j (by omega) h2

theorem validate_bare (dev : Device) (h : Redivided k wl wl') : wl'.validate dev = wl.validate dev := by
  have key : ∀ wl : Workload, Counted wl.phases → wl.validate dev =
      Out.foldlM (Workload.validateTransfer dev wl.gblTransferId)
        ⟨[], List.replicate wl.gblTransferId false, 0⟩ wl.transfers >>= fun s => .ok (decide (s.errors = 0)) := by
    intro wl hc
    refine Concur.toEq ?_
    unfold Workload.validate
    refine (validate_flat dev wl.phases.length wl.gblTransferId wl.phases 0 (List.replicate wl.phases.length false)
      ⟨List.replicate wl.phases.length false, List.replicate wl.gblTransferId false, 0⟩
      ⟨[], List.replicate wl.gblTransferId false, 0⟩ ?_
      (by omega) ?_ ⟨rfl, rfl, rfl⟩).bind fun a b hab => ?_
    · unfold Counted at hc
      rw [List.range_eq_range'] at hc
      exact hc
    · intro j _ hj
      rw [List.getElem?_replicate, if_pos hj]
    · rw [hab]
      exact .rfl' _
  rw [key wl h.left, key wl' h.right, h.gbl,
    h.transfers.foldlM (f := Workload.validateTransfer dev wl.gblTransferId) fun c t p e z => rfl]

/-! ### Whole runs -/

theorem runNPE_bare (fp : FP) (ho : HashOrder) (api : Api) (h : Redivided k wl wl') :
    api.runNPE fp ho wl = api.runNPE fp ho wl' := by
  refine Concur.toEq ?_
  unfold Api.runNPE
  refine (preprocess_bare fp api h).bind fun a b hab => ?_
  rw [validate_bare api.dev hab]
  refine .same _ fun v _ => ?_
  unfold Api.runPerf
  simp only [runSim_bare fp api ho _ hab.toRegrouped]
  exact .rfl' _

theorem runNPEFiles_bare (fp : FP) (ho : HashOrder) (ord : List (Int × List Int) → List (Int × List Int)) (api : Api)
    (tc : TimelineConfig) (h : Redivided true wl wl') : api.runNPEFiles fp ho ord tc wl = api.runNPEFiles fp ho ord tc wl' := by
  refine Concur.toEq ?_
  unfold Api.runNPEFiles
  refine (preprocess_bare fp api h).bind fun a b hab => ?_
  rw [validate_bare api.dev hab]
  refine .same _ fun v _ => ?_
  unfold Api.runPerfFiles
  simp only [runSimFiles_bare fp api ho ord _ _ hab.toRegrouped]
  exact .rfl' _

/-- Phases with the same transfers in the same order. -/
theorem redivided_build {phs phs' : List Phase}
    (hc : (phs.flatMap (·.transfers)).map (plain k) = (phs'.flatMap (·.transfers)).map (plain k)) :
    Redivided k (Workload.build phs) (Workload.build phs') := by
  have hl : (phs.flatMap (·.transfers)).length = (phs'.flatMap (·.transfers)).length := by
    simpa using congrArg List.length hc
  obtain ⟨a1, a2, a3, a4, a5, a6⟩ := foldl_addPhase_flat phs {}
  obtain ⟨b1, b2, b3, b4, b5, b6⟩ := foldl_addPhase_flat phs' {}
  refine ⟨⟨?_, b3.trans a3.symm, fun _ => b4.trans a4.symm, fun _ => b5.trans a5.symm⟩, ?_, a6 rfl, b6 rfl⟩
  · unfold SameTransfers
    exact (b1.trans (by rw [hc])).trans a1.symm
  · exact (b2.trans (by rw [hl])).trans a2.symm

end NPE
