import Verif.Proofs.OrderFree
import Verif.Model.Document
import Verif.Model.Write
import Verif.Model.Cli
import Verif.Model.Directory

/-
Set-up and output of two simulations that differ in the order of the issue queues.
-/

namespace NPE
open NPE.Spec NPE.Spec.Fluid

/-! ### The files do not show checkpoint numbers -/

theorem mapM_map' {α β γ : Type} (f : β → Out γ) (g : α → β) : ∀ l : List α,
    Out.mapM f (l.map g) = Out.mapM (fun a => f (g a)) l := by
  intro l
  induction l with
  | nil => rfl
  | cons a l ih => rw [List.map_cons, Out.mapM_cons, Out.mapM_cons, ih]

theorem bind_assoc' {α β γ : Type} (x : Out α) (f : α → Out β) (g : β → Out γ) :
    (x >>= f) >>= g = x >>= fun a => f a >>= g := by cases x <;> rfl

theorem mapM_post {α β γ : Type} (f : α → Out β) (g : β → γ) : ∀ l : List α,
    Out.mapM (fun a => f a >>= fun b => .ok (g b)) l = Out.mapM f l >>= fun bs => .ok (bs.map g) := by
  intro l
  induction l with
  | nil => rfl
  | cons a l ih =>
    rw [Out.mapM_cons, Out.mapM_cons, ih]
    simp only [bind_assoc', Out.bind_ok, List.map_cons]

theorem insertSorted_map {α β : Type} (le : α → α → Bool) (le' : β → β → Bool) (g : α → β)
    (h : ∀ a b, le' (g a) (g b) = le a b) (a : α) : ∀ l : List α,
    insertSorted le' (g a) (l.map g) = (insertSorted le a l).map g := by
  intro l
  induction l with
  | nil => rfl
  | cons b l ih =>
    simp only [List.map_cons, insertSorted, h]
    split
    · rfl
    · rw [ih]; rfl

theorem sortBy_map {α β : Type} (le : α → α → Bool) (le' : β → β → Bool) (g : α → β)
    (h : ∀ a b, le' (g a) (g b) = le a b) : ∀ l : List α, sortBy le' (l.map g) = (sortBy le l).map g := by
  intro l
  induction l with
  | nil => rfl
  | cons a l ih =>
    simp only [List.map_cons, sortBy]
    rw [ih, insertSorted_map le le' g h]

theorem components_unlinked (ts : List TState) (ids : List Int) :
    components (ts.map unlinked) ids = components ts ids >>= fun l => .ok (l.map unlinked) := by
  unfold components
  have e : (stateAt (ts.map unlinked)) = fun id => stateAt ts id >>= fun t => .ok (unlinked t) := by
    funext id
    unfold stateAt
    split
    · rfl
    · rw [List.getElem?_map]
      cases ts[id.toNat]? <;> rfl
  rw [e, mapM_post]
  simp only [bind_assoc', Out.bind_ok, Out.pure_eq]
  congr 1
  funext l
  rw [sortBy_map (fun a b : TState => decide (a.params.groupIdx ≤ b.params.groupIdx)) _ unlinked (fun a b => rfl)]

theorem emitGroup_unlinked (dev : Device) (ts : List TState) (region : Option Region) (e : Int × List Int) :
    emitGroup dev (ts.map unlinked) region e = emitGroup dev ts region e := by
  unfold emitGroup
  rw [components_unlinked]
  simp only [bind_assoc', Out.bind_ok]
  congr 1
  funext _
  congr 1
  funext l
  rw [List.head?_map, List.getLast?_map, mapM_map']
  cases l.head? <;> cases l.getLast? <;> rfl

theorem timelineGroups_unlinked (wl : Workload) (ts : List TState) :
    timelineGroups wl (ts.map unlinked) = timelineGroups wl ts := by
  unfold timelineGroups
  rw [List.foldl_map]
  rfl

theorem serializeV1_unlinked (fp : FP) (dev : Device) (ord : List (Int × List Int) → List (Int × List Int)) (wl : Workload)
    (ts : List TState) (steps : List TimestepStats) (region : Option Region) :
    serializeV1 fp dev ord wl (ts.map unlinked) steps region = serializeV1 fp dev ord wl ts steps region := by
  unfold serializeV1
  rw [timelineGroups_unlinked, show emitGroup dev (ts.map unlinked) region = emitGroup dev ts region from
    funext fun e => emitGroup_unlinked dev ts region e]

theorem documentV0_unlinked (fp : FP) (cfg : Config) (dev : Device) (wl : Workload) (ts : List TState) (st : DevStats)
    (sm : Summary) : documentV0 fp cfg dev ⟨wl, ts.map unlinked, st, sm⟩ = documentV0 fp cfg dev ⟨wl, ts, st, sm⟩ := by
  unfold documentV0
  simp only
  rw [mapM_map']
  rfl

theorem documentV1_unlinked (fp : FP) (cfg : Config) (dev : Device) (ord : List (Int × List Int) → List (Int × List Int))
    (topology : InputFile) (wl : Workload) (ts : List TState) (st : DevStats) (sm : Summary) (region : Option Region) :
    documentV1 fp cfg dev ord topology ⟨wl, ts.map unlinked, st, sm⟩ region =
      documentV1 fp cfg dev ord topology ⟨wl, ts, st, sm⟩ region := by
  unfold documentV1
  simp only [serializeV1_unlinked]

theorem emitFiles_unlinked (fp : FP) (cfg : Config) (dev : Device) (ord : List (Int × List Int) → List (Int × List Int))
    (tc : TimelineConfig) (wl : Workload) (ts : List TState) (rep : Report) :
    emitFiles fp cfg dev ord tc wl (ts.map unlinked) rep = emitFiles fp cfg dev ord tc wl ts rep := by
  unfold emitFiles splitFiles
  simp only [documentV0_unlinked, documentV1_unlinked]

/-! ### Set-up -/

/-- The lists and trackers of two sets of edges. -/
def SameBase (ts : List TState) (p p' : List TState × Tracker) : Prop :=
  ∃ E E', EdgesOk ts.length E ∧ EdgesOk ts.length E' ∧ p = (tsOf ts E, tkOf E) ∧ p' = (tsOf ts E', tkOf E')

theorem edgesOk_snoc {n : Nat} {E : List Edge} (h : EdgesOk n E) {e : Edge} (h1 : e.p < n) (h2 : e.c < n) :
    EdgesOk n (E ++ [e]) := by
  intro x hx
  rcases List.mem_append.mp hx with hx | hx
  · exact h x hx
  · rw [List.mem_singleton.mp hx]; exact ⟨h1, h2⟩

theorem groupOne_alike (fp : FP) (dev : Device) (ts : List TState) (gm : List ((Int × Int) × Nat))
    {p p' : List TState × Tracker} (h : SameBase ts p p') (t : Transfer) (ht : t.id.toNat < ts.length) :
    Concur (SameBase ts) (groupOne fp dev gm p t) (groupOne fp dev gm p' t) := by
  obtain ⟨E, E', hE, hE', rfl, rfl⟩ := h
  unfold groupOne
  split
  · simp only
    cases hp : ts[(gm.lookup (t.groupId, t.groupParent)).getD 0]? with
    | none =>
      have hn := List.getElem?_eq_none_iff.mp hp
      rw [List.getElem?_eq_none (by rw [tsOf_length]; exact hn), List.getElem?_eq_none (by rw [tsOf_length]; exact hn)]
      exact .ub
    | some tp =>
      have hlt := (List.getElem?_eq_some_iff.mp hp).1
      rw [tsOf_get.mpr ⟨tp, hp, rfl⟩, tsOf_get.mpr ⟨tp, hp, rfl⟩]
      simp only
      refine .same _ fun d _ => ?_
      rw [addDep_eq ts E _ _ _ hlt ht, addDep_eq ts E' _ _ _ hlt ht]
      exact .ok ⟨_, _, edgesOk_snoc hE hlt ht, edgesOk_snoc hE' hlt ht, rfl, rfl⟩
  · exact .ok ⟨E, E', hE, hE', rfl, rfl⟩

theorem foldlM_alike_mem {α β ε : Type} {R : α → β → Prop} {f : α → ε → Out α} {g : β → ε → Out β} :
    ∀ (l : List ε), (∀ e ∈ l, ∀ a b, R a b → Concur R (f a e) (g b e)) → ∀ (a : α) (b : β), R a b →
      Concur R (Out.foldlM f a l) (Out.foldlM g b l) := by
  intro l
  induction l with
  | nil => intro _ a b h; exact .ok h
  | cons e l ih =>
    intro hf a b h
    rw [Out.foldlM_cons, Out.foldlM_cons]
    exact (hf e (by simp) a b h).bind fun a' b' h' => ih (fun e he => hf e (by simp [he])) a' b' h'

theorem genDependencies_alike (fp : FP) (dev : Device) (bord bord' : List BucketKey → List BucketKey) {ts : List TState}
    (hf : Fresh ts) (hd : DenseTs ts) :
    Concur (fun _ _ => True) (genDependencies fp dev bord ts) (genDependencies fp dev bord' ts) := by
  unfold genDependencies
  by_cases hk : ∀ t ∈ ts, ∃ k, bucketKey dev t = .ok k
  · rw [niuPass_eq hf hd hk, niuPass_eq hf hd hk, Out.bind_ok, Out.bind_ok]
    refine (foldlM_alike_mem (R := SameBase ts) _ (fun t ht a b hab => groupOne_alike fp dev ts _ hab t ?_) _ _
      ⟨_, _, niuEdges_ok hd, niuEdges_ok hd, rfl, rfl⟩).bind fun a b hab => ?_
    · obtain ⟨t0, ht0, rfl⟩ := List.mem_map.mp ht
      exact hd.lt ht0
    · obtain ⟨E, E', hE, hE', rfl, rfl⟩ := hab
      obtain ⟨tk, h1, _⟩ := selfCheck_eq hE
      obtain ⟨tk', h1', _⟩ := selfCheck_eq hE'
      simp only
      rw [h1, h1']
      exact .ok trivial
  · unfold niuPass
    rw [bind_assoc', bind_assoc']
    refine .same _ fun keyed hkd => ?_
    exfalso
    apply hk
    intro t ht
    have h2 := (Out.mapM_map ((Noc.noc0, (0 : Int), (0 : Int), (0 : Int)), 0, 0) hkd).2
    obtain ⟨k, hk, _⟩ := Out.bind_eq_ok.mp (h2 t ht)
    exact ⟨k, hk⟩

section
variable {fp : FP} {dev : Device} {ho ho' : HashOrder} {wl : Workload} {s0 s0' : Sim}

/-- Two orders of the issue queues number the checkpoints differently, and that is all. -/
theorem init_like (h0 : initSim fp dev ho wl = .ok s0) (h0' : initSim fp dev ho' wl = .ok s0')
    (hb : ∀ l, (ho.buckets l).Perm l) (hb' : ∀ l, (ho'.buckets l).Perm l)
    (hl : ho'.links = ho.links ∨ ∀ t ∈ wl.transfers, ∃ d, t.dst = .unicast d) :
    SimLike (s0.ts.map numbers) (s0'.ts.map numbers) s0 s0' := by
  have P := parallel_orders h0 h0' hl
  obtain ⟨job, hd⟩ := describes_exists h0
  obtain ⟨job', hd'⟩ := describes_exists h0'
  have F := parallel_frame h0 h0' hb hb' P hd hd'
  obtain ⟨ts, I⟩ := init0 h0
  obtain ⟨ts', I'⟩ := init0 h0'
  have hts : ts' = ts := by
    have a := I.state
    have b := I'.state
    rw [initTransferState_links hl, a] at b
    exact (Out.ok.inj b).symm
  subst hts
  have inv := init_inv h0
  have inv' := init_inv h0'
  have i0 := (initSim_ok h0).1
  have i0' := (initSim_ok h0').1
  have waits : ∀ i t t', s0.ts[i]? = some t → s0'.ts[i]? = some t' → ∀ j d, WaitsFor s0 i j d ↔ WaitsFor s0' i j d := by
    intro i t t' ht ht' j d
    have e := F.after i (List.getElem?_eq_some_iff.mp ht).1
    have e' : (job' i).after = (job i).after := by simpa using e
    rw [← (hd i t ht).2.2 j d, ← (hd' i t' ht').2.2 j d, e']
  have num : ∀ (s : Sim) (i : Nat) (e : Int × List Int), (s.ts.map numbers)[i]? = some e →
      ∃ t, s.ts[i]? = some t ∧ e = numbers t := by
    intro s i e h
    rw [List.getElem?_map] at h
    obtain ⟨t, h1, h2⟩ := Option.map_eq_some_iff.mp h
    exact ⟨t, h1, h2.symm⟩
  have cps : ∀ (E : List Edge) (k : Nat) (cp : Checkpoint), (tkOf E)[k]? = some cp → cp = ⟨0, 1, 0, cp.delay⟩ := by
    intro E k cp h
    unfold tkOf at h
    rw [List.getElem?_map] at h
    obtain ⟨e, _, h2⟩ := Option.map_eq_some_iff.mp h
    rw [← h2]
  have req : ∀ (s : Sim), Inv 0 s → ∀ (i : Nat) (e : Int × List Int), (s.ts.map numbers)[i]? = some e →
      e.2.Nodup ∧ ∀ j ∈ e.2, 0 ≤ j ∧ j.toNat < s.deps.length := by
    intro s hi i e h
    obtain ⟨t, h1, rfl⟩ := num s i e h
    refine ⟨rb_nodup_one hi.rbNodup h1, fun j hj => ⟨hi.rbValid i t h1 j hj, ?_⟩⟩
    obtain ⟨cp, hcp, _⟩ := hi.tracker i t h1 j hj
    exact (List.getElem?_eq_some_iff.mp hcp).1
  refine ⟨⟨rfl, rfl, ?_⟩, ⟨?_, req s0 inv, req s0' inv', ?_⟩, parallel_queue h0 h0' P, ?_, ?_, ?_⟩
  · rw [I.states, I'.states]
    unfold tsOf
    refine List.ext_getElem? fun i => ?_
    rw [List.getElem?_map, List.getElem?_map, List.getElem?_mapIdx, List.getElem?_mapIdx]
    cases ts'[i]? <;> rfl
  · intro i e e' he he'
    obtain ⟨t, ht, rfl⟩ := num _ _ _ he
    obtain ⟨t', ht', rfl⟩ := num _ _ _ he'
    have hw := waits i t t' ht ht'
    rcases inv.waits_cases ht with ⟨a1, a2⟩ | ⟨j, d, a1, _⟩
    · rcases inv'.waits_cases ht' with ⟨b1, b2⟩ | ⟨j, d, b1, _⟩
      · exact ⟨Or.inl a1, Or.inl b1, by show atNumber _ t'.dependsOn = atNumber _ t.dependsOn; rw [a1, b1]; rfl⟩
      · exact absurd ((hw j d).mpr b1) (a2 j d)
    · obtain ⟨x, y, cp, c1, c2, c3, c4, c5, c6⟩ := a1
      obtain ⟨x', y', cp', d1, d2, d3, d4, d5, d6⟩ := (hw j d).mp ⟨x, y, cp, c1, c2, c3, c4, c5, c6⟩
      rw [ht] at c1
      obtain rfl := Option.some.inj c1
      rw [ht'] at d1
      obtain rfl := Option.some.inj d1
      refine ⟨Or.inr ⟨c4, (List.getElem?_eq_some_iff.mp c5).1⟩, Or.inr ⟨d4, (List.getElem?_eq_some_iff.mp d5).1⟩, ?_⟩
      show atNumber s0'.deps t'.dependsOn = atNumber s0.deps t.dependsOn
      unfold atNumber
      rw [if_neg (by omega), if_neg (by omega), c5, d5]
      rw [I.deps] at c5
      rw [I'.deps] at d5
      rw [cps _ _ _ c5, cps _ _ _ d5, c6, d6]
  · intro i j e e' f f' he he' hf hf'
    obtain ⟨t, ht, rfl⟩ := num _ _ _ he
    obtain ⟨t', ht', rfl⟩ := num _ _ _ he'
    obtain ⟨u, hu, rfl⟩ := num _ _ _ hf
    obtain ⟨u', hu', rfl⟩ := num _ _ _ hf'
    have hw := waits i t t' ht ht'
    constructor
    · intro h
      obtain ⟨cp, hcp, _⟩ := inv.tracker j u hu _ h
      obtain ⟨x, y, cp', c1, c2, c3, _⟩ := (hw j cp.delay).mp ⟨t, u, cp, ht, hu, h, inv.rbValid j u hu _ h, hcp, rfl⟩
      rw [ht'] at c1
      rw [hu'] at c2
      rw [← Option.some.inj c1, ← Option.some.inj c2] at c3
      exact c3
    · intro h
      obtain ⟨cp, hcp, _⟩ := inv'.tracker j u' hu' _ h
      obtain ⟨x, y, cp', c1, c2, c3, _⟩ := (hw j cp.delay).mpr ⟨t', u', cp, ht', hu', h, inv'.rbValid j u' hu' _ h, hcp, rfl⟩
      rw [ht] at c1
      rw [hu] at c2
      rw [← Option.some.inj c1, ← Option.some.inj c2] at c3
      exact c3
  · rw [i0.live, i0'.live]
  · rw [i0.grids, i0'.grids]
  · rw [i0.stats, i0'.stats]

/-- The set-up succeeds or fails alike. -/
theorem init_alike (fp : FP) (dev : Device) {ho ho' : HashOrder} {wl : Workload}
    (hb : ∀ l, (ho.buckets l).Perm l) (hb' : ∀ l, (ho'.buckets l).Perm l)
    (hl : ho'.links = ho.links ∨ ∀ t ∈ wl.transfers, ∃ d, t.dst = .unicast d) :
    Concur (fun s s' => ∃ L L', SimLike L L' s s') (initSim fp dev ho wl) (initSim fp dev ho' wl) := by
  have a : Concur (fun _ _ => True) (initSim fp dev ho wl) (initSim fp dev ho' wl) := by
    unfold initSim
    rw [initTransferState_links (l' := ho'.links) (l := ho.links) hl]
    refine .same _ fun ts h => ?_
    obtain ⟨hf, hd⟩ := init_fresh h
    exact (genDependencies_alike fp dev ho.buckets ho'.buckets hf hd).bind fun _ _ _ => .ok trivial
  cases h : initSim fp dev ho wl with
  | ok s =>
    cases h' : initSim fp dev ho' wl with
    | ok s' => exact .ok ⟨_, _, init_like h h' hb hb' hl⟩
    | _ => rw [h, h'] at a; cases a
  | _ => rw [h] at a; cases h' : initSim fp dev ho' wl <;> rw [h'] at a <;> cases a <;> constructor

/-- A simulation. -/
theorem runSingle_alike (fp : FP) (dev : Device) {ho ho' : HashOrder} {wl : Workload} (cpt : Nat) (en : Bool)
    (hb : ∀ l, (ho.buckets l).Perm l) (hb' : ∀ l, (ho'.buckets l).Perm l)
    (hl : ho'.links = ho.links ∨ ∀ t ∈ wl.transfers, ∃ d, t.dst = .unicast d) :
    Concur (fun r r' => (∃ s s' st, r = .inl (s, st) ∧ r' = .inl (s', st) ∧ s'.ts.map unlinked = s.ts.map unlinked) ∨
      ∃ e, r = .inr e ∧ r' = .inr e) (runSingle fp dev ho cpt en wl) (runSingle fp dev ho' cpt en wl) := by
  unfold runSingle runLoop
  refine ((init_alike fp dev hb hb' hl).bind (S := fun e e' => ∃ L L', EndLike L L' e e') fun s s' h => ?_).bind
    fun e e' he => ?_
  · obtain ⟨L, L', h⟩ := h
    exact (loop_alike (cfg := simConfig fp dev cpt wl.golden en) (fun L L' ts ts' h sot curr g live =>
      linked_rates h en sot curr g live) _ _ _ _ h).mono fun a b hab => ⟨L, L', hab⟩
  · obtain ⟨L, L', he⟩ := he
    cases e with
    | finished s c =>
      cases e' with
      | limit _ _ => exact absurd he (by simp [EndLike])
      | finished s' c' =>
        obtain ⟨h1, h2⟩ := he
        simp only
        rw [h1.stats]
        exact .same _ fun st _ => .ok (Or.inl ⟨s, s', st, rfl, rfl, h1.ts.same⟩)
    | limit s c =>
      cases e' with
      | finished _ _ => exact absurd he (by simp [EndLike])
      | limit s' c' => exact .ok (Or.inr ⟨_, rfl, rfl⟩)

theorem runSimFiles_order (fp : FP) (api : Api) {ho ho' : HashOrder} {wl : Workload}
    (ord : List (Int × List Int) → List (Int × List Int)) (tc : TimelineConfig) (en : Bool)
    (hb : ∀ l, (ho.buckets l).Perm l) (hb' : ∀ l, (ho'.buckets l).Perm l)
    (hl : ho'.links = ho.links ∨ ∀ t ∈ wl.transfers, ∃ d, t.dst = .unicast d) :
    api.runSimFiles fp ho ord tc en wl = api.runSimFiles fp ho' ord tc en wl := by
  refine Concur.toEq ?_
  unfold Api.runSimFiles
  refine (runSingle_alike fp api.dev api.cfg.cyclesPerTimestep en hb hb' hl).bind fun r r' h => ?_
  rcases h with ⟨s, s', st, rfl, rfl, h⟩ | ⟨e, rfl, rfl⟩
  · simp only
    refine .same _ fun rep _ => ?_
    rw [← emitFiles_unlinked fp api.cfg api.dev ord tc wl s.ts, ← h, emitFiles_unlinked]
    exact .rfl' _
  · exact .rfl' _

theorem runSim_order (fp : FP) (api : Api) {ho ho' : HashOrder} {wl : Workload} (en : Bool)
    (hb : ∀ l, (ho.buckets l).Perm l) (hb' : ∀ l, (ho'.buckets l).Perm l)
    (hl : ho'.links = ho.links ∨ ∀ t ∈ wl.transfers, ∃ d, t.dst = .unicast d) :
    api.runSim fp ho en wl = api.runSim fp ho' en wl := by
  refine Concur.toEq ?_
  unfold Api.runSim
  refine (runSingle_alike fp api.dev api.cfg.cyclesPerTimestep en hb hb' hl).bind fun r r' h => ?_
  rcases h with ⟨s, s', st, rfl, rfl, h⟩ | ⟨e, rfl, rfl⟩
  · exact .rfl' _
  · exact .rfl' _

end

end NPE
