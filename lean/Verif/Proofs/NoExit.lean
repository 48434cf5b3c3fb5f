import Verif.Proofs.Group

/-
The model reaches `exit` only through the self check, and the self check always passes.
-/

namespace NPE
open NPE.Spec

namespace Out

theorem bind_ne_exit {α β : Type} {x : Out α} {f : α → Out β} (hx : x ≠ .exit)
    (hf : ∀ a, x = .ok a → f a ≠ .exit) : (x >>= f) ≠ .exit := by
  cases x <;> simp_all

theorem foldlM_ne_exit {α σ : Type} {f : σ → α → Out σ} (h : ∀ s a, f s a ≠ .exit) :
    ∀ (l : List α) (s : σ), Out.foldlM f s l ≠ .exit := by
  intro l
  induction l with
  | nil => intro s; simp
  | cons a l ih => intro s; exact bind_ne_exit (h s a) fun s' _ => ih s'

theorem mapM_ne_exit {α β : Type} {f : α → Out β} (h : ∀ a, f a ≠ .exit) :
    ∀ l : List α, Out.mapM f l ≠ .exit := by
  intro l
  induction l with
  | nil => simp
  | cons a l ih =>
    exact bind_ne_exit (h a) fun b _ => bind_ne_exit ih fun bs _ => by simp

theorem assert_ne_exit (c : Bool) : Out.assert c ≠ .exit := by cases c <;> simp

end Out
open Out

theorem getLinkID_ne_exit (dev : Device) (a : LinkAttr) : dev.getLinkID a ≠ .exit := by
  unfold Device.getLinkID
  split <;> simp

theorem getLinkAttributes_ne_exit (dev : Device) (i : Int) : dev.getLinkAttributes i ≠ .exit := by
  unfold Device.getLinkAttributes
  split
  · simp
  · split <;> simp

theorem unicastLoop_ne_exit (dev : Device) (noc : Noc) (er ec : Int) : ∀ (n : Nat) (r c : Int),
    dev.unicastLoop noc er ec n r c ≠ .exit := by
  intro n
  induction n with
  | zero => intro r c; simp [Device.unicastLoop]
  | succ n ih =>
    intro r c
    unfold Device.unicastLoop
    cases noc <;> simp only <;> split
    all_goals first
      | exact bind_ne_exit (getLinkID_ne_exit _ _) fun _ _ => bind_ne_exit (ih _ _) fun _ _ => by simp
      | skip
    all_goals split
    all_goals first
      | exact bind_ne_exit (getLinkID_ne_exit _ _) fun _ _ => bind_ne_exit (ih _ _) fun _ _ => by simp
      | simp

theorem routeSingle_ne_exit (dev : Device) (ord : List Int → List Int) (noc : Noc) (s : Coord)
    (d : Dest) : dev.routeSingle ord noc s d ≠ .exit := by
  cases d with
  | unicast e => exact unicastLoop_ne_exit _ _ _ _ _ _ _
  | mcast gs =>
    show dev.multicastRoute ord noc s gs ≠ .exit
    unfold Device.multicastRoute
    refine bind_ne_exit (assert_ne_exit _) fun _ _ => ?_
    cases gs with
    | nil => simp
    | cons g gs =>
      cases noc <;> simp only <;>
        exact bind_ne_exit (foldlM_ne_exit (fun _ _ => bind_ne_exit
          (unicastLoop_ne_exit _ _ _ _ _ _ _) fun _ _ => by simp) _ _) fun _ _ => by simp

theorem route_ne_exit (dev : Device) (ord : List Int → List Int) (noc : Noc) (s : Coord)
    (d : Dest) : dev.route ord noc s d ≠ .exit := by
  unfold Device.route
  split
  · refine bind_ne_exit (assert_ne_exit _) fun _ _ => bind_ne_exit (assert_ne_exit _) fun _ _ =>
      bind_ne_exit (routeSingle_ne_exit _ _ _ _ _) fun _ _ => ?_
    exact mapM_ne_exit (fun _ => bind_ne_exit (getLinkAttributes_ne_exit _ _)
      fun _ _ => getLinkID_ne_exit _ _) _
  · exact routeSingle_ne_exit _ _ _ _ _

theorem initTransferState_ne_exit (dev : Device) (ord : List Int → List Int) (wl : Workload) :
    initTransferState dev ord wl ≠ .exit := by
  unfold initTransferState
  refine bind_ne_exit (foldlM_ne_exit (fun _ _ => ?_) _ _) fun _ _ => mapM_ne_exit (fun o => ?_) _
  · exact bind_ne_exit (assert_ne_exit _) fun _ _ => bind_ne_exit (route_ne_exit _ _ _ _ _)
      fun _ _ => by simp
  · cases o <;> simp

theorem bucketKey_ne_exit (dev : Device) (t : TState) : bucketKey dev t ≠ .exit := by
  unfold bucketKey
  split
  · simp
  · exact bind_ne_exit (getLinkAttributes_ne_exit _ _) fun _ _ => by simp

theorem addDep_ne_exit (st : List TState × Tracker) (p c d : Nat) : addDep st p c d ≠ .exit := by
  unfold addDep
  simp only
  split
  · simp
  · split <;> simp

theorem niuPass_ne_exit (dev : Device) (bord : List BucketKey → List BucketKey) (ts : List TState) :
    niuPass dev bord ts ≠ .exit := by
  unfold niuPass
  refine bind_ne_exit (mapM_ne_exit (fun _ => bind_ne_exit (bucketKey_ne_exit _ _)
    fun _ _ => by simp) _) fun _ _ => foldlM_ne_exit (fun _ _ => ?_) _ _
  unfold chainBucket
  exact foldlM_ne_exit (fun _ _ => addDep_ne_exit _ _ _ _) _ _

theorem groupDelay_ne_exit (fp : FP) (dev : Device) (t : Transfer) (pd : Int) :
    groupDelay fp dev t pd ≠ .exit := by
  unfold groupDelay
  cases t.dst with
  | mcast m => simp
  | unicast e =>
    cases dev.arch with
    | blackhole => simp
    | wormholeB0 =>
      simp only [Out.bind_ok]
      split
      · unfold addEthDelay
        simp only
        split <;> simp
      · simp

theorem groupOne_ne_exit (fp : FP) (dev : Device) (gm : List ((Int × Int) × Nat))
    (st : List TState × Tracker) (t : Transfer) : groupOne fp dev gm st t ≠ .exit := by
  unfold groupOne
  split
  · simp only
    split
    · simp
    · exact bind_ne_exit (groupDelay_ne_exit _ _ _ _) fun _ _ => addDep_ne_exit _ _ _ _
  · simp

theorem genDependencies_ne_exit {fp : FP} {dev : Device} {bord : List BucketKey → List BucketKey}
    {ts : List TState} (hf : Fresh ts) (hd : DenseTs ts) :
    genDependencies fp dev bord ts ≠ .exit := by
  unfold genDependencies
  refine bind_ne_exit (niuPass_ne_exit _ _ _) fun st1 h1 => bind_ne_exit
    (foldlM_ne_exit (fun _ _ => groupOne_ne_exit _ _ _ _ _) _ _) fun st2 h2 => ?_
  have hk := niuPass_ok h1
  rw [niuPass_eq hf hd hk] at h1
  rw [← Out.ok.inj h1] at h2
  have hids : ∀ t ∈ ts.map (·.params), t.id.toNat < ts.length := by
    intro t ht
    obtain ⟨t0, ht0, rfl⟩ := List.mem_map.mp ht
    exact hd.lt ht0
  obtain ⟨e2, hg⟩ := foldlM_group _ _ _ hids h2
  have hE : EdgesOk ts.length (niuEdges dev bord ts ++
      ((ts.map (·.params)).filter (fun t => HasParent t)).map (groupEdge fp dev ts)) := by
    intro e he
    rcases List.mem_append.mp he with he | he
    · exact niuEdges_ok hd e he
    · obtain ⟨t, ht, rfl⟩ := List.mem_map.mp he
      obtain ⟨ht, hp⟩ := List.mem_filter.mp ht
      exact ⟨(hg t ht (by simpa using hp)).1, hids t ht⟩
  obtain ⟨tk1, h3, _⟩ := selfCheck_eq hE
  rw [e2]
  simp only
  rw [h3]
  simp

theorem initSim_ne_exit (fp : FP) (dev : Device) (ho : HashOrder) (wl : Workload) :
    initSim fp dev ho wl ≠ .exit := by
  unfold initSim
  refine bind_ne_exit (initTransferState_ne_exit _ _ _) fun ts h => ?_
  obtain ⟨hf, hd⟩ := init_fresh h
  exact bind_ne_exit (genDependencies_ne_exit hf hd) fun _ _ => by simp

end NPE
