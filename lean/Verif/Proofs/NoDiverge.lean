import Verif.Proofs.Preprocess
import Verif.Props.Engine

/-
No run of the estimator diverges, for any workload.
-/

namespace NPE
open Spec

namespace Out

/-- The outcome is not an endless loop. -/
structure Ends {α : Type} (x : Out α) : Prop where
  ne : x ≠ diverge

theorem Ends.bind {α β : Type} {x : Out α} {f : α → Out β} (hx : x.Ends)
    (hf : ∀ a, x = ok a → (f a).Ends) : (x >>= f).Ends := by
  cases x with
  | ok a => exact hf a rfl
  | diverge => exact absurd rfl hx.ne
  | _ => exact ⟨nofun⟩

theorem ends_ok {α : Type} (a : α) : (ok a).Ends := ⟨nofun⟩
theorem ends_pure {α : Type} (a : α) : (pure a : Out α).Ends := ⟨nofun⟩
theorem ends_exc {α : Type} (c : ErrCode) : (exc c : Out α).Ends := ⟨nofun⟩
theorem ends_std {α : Type} (c : StdExc) : (std c : Out α).Ends := ⟨nofun⟩
theorem ends_exit {α : Type} : (exit : Out α).Ends := ⟨nofun⟩
theorem ends_ub {α : Type} : (ub : Out α).Ends := ⟨nofun⟩

theorem ends_assert (c : Bool) : (assert c).Ends := by
  unfold assert; split <;> exact ⟨nofun⟩

theorem ends_foldlM {α σ : Type} {f : σ → α → Out σ} : ∀ (l : List α) (s : σ),
    (∀ s, ∀ a ∈ l, (f s a).Ends) → (foldlM f s l).Ends
  | [], s, _ => ⟨nofun⟩
  | a :: l, s, h => by
    rw [foldlM_cons]
    exact (h s a (List.mem_cons_self ..)).bind fun s' _ =>
      ends_foldlM l s' fun s b hb => h s b (List.mem_cons_of_mem _ hb)

theorem ends_mapM {α β : Type} {f : α → Out β} : ∀ (l : List α),
    (∀ a ∈ l, (f a).Ends) → (mapM f l).Ends
  | [], _ => ⟨nofun⟩
  | a :: l, h => by
    rw [mapM_cons]
    exact (h a (List.mem_cons_self ..)).bind fun b _ =>
      (ends_mapM l fun c hc => h c (List.mem_cons_of_mem _ hc)).bind fun bs _ => ⟨nofun⟩

end Out
open Out

/-- Closes goals `Ends x` for programs without loops of their own. -/
macro "ends_auto" : tactic => `(tactic|
  repeat' (first
    | exact ends_ok _ | exact ends_pure _ | exact ends_exc _ | exact ends_std _ | exact ends_exit
    | exact ends_ub | exact ends_assert _ | assumption
    | (refine Ends.bind ?_ ?_)
    | (refine ends_foldlM _ _ ?_)
    | (refine ends_mapM _ ?_)
    | intro _
    | split))

theorem getCoreType_ends (dev : Device) (c : Coord) : (dev.getCoreType c).Ends := by
  unfold Device.getCoreType; simp only; ends_auto

theorem getSrcInjectionRate_ends (dev : Device) (c : Coord) : (dev.getSrcInjectionRate c).Ends :=
  (getCoreType_ends dev c).bind fun _ _ => ends_pure _

theorem getSinkAbsorptionRate_ends (dev : Device) (c : Coord) : (dev.getSinkAbsorptionRate c).Ends :=
  (getCoreType_ends dev c).bind fun _ _ => ends_pure _

theorem getLinkID_ends (dev : Device) (a) : (dev.getLinkID a).Ends := by
  unfold Device.getLinkID; ends_auto

theorem getNIUID_ends (dev : Device) (a) : (dev.getNIUID a).Ends := by
  unfold Device.getNIUID; ends_auto

theorem getLinkAttributes_ends (dev : Device) (a) : (dev.getLinkAttributes a).Ends := by
  unfold Device.getLinkAttributes; ends_auto

theorem getNIUAttributes_ends (dev : Device) (a) : (dev.getNIUAttributes a).Ends := by
  unfold Device.getNIUAttributes; ends_auto

theorem niuAt_ends (dev : Device) (c t) : (dev.niuAt c t).Ends := getNIUID_ends _ _

/-! ### Multicast iteration -/

theorem mcastCollect_single (g : CoordGrid) (hr0 : 0 ≤ g.lo.row) (hr1 : g.lo.row < 32767)
    (hr2 : g.hi.row < 32767) (hc0 : 0 ≤ g.lo.col) (hc1 : g.hi.col ≤ 32767) :
    ∀ (fuel : Nat) (it : McastIter),
      (it.idx = 1 ∧ 1 ≤ fuel) ∨
      (it.idx = 0 ∧ g.lo.row ≤ it.pos.row ∧ it.pos.row ≤ max g.lo.row g.hi.row ∧
        g.lo.col ≤ it.pos.col ∧ it.pos.col ≤ max g.lo.col g.hi.col ∧
        (max g.lo.row g.hi.row - it.pos.row) * (max g.lo.col g.hi.col - g.lo.col + 1) +
          (max g.lo.col g.hi.col - it.pos.col) + 2 ≤ fuel) →
      (mcastCollect [g] fuel it).Ends := by
  intro fuel
  induction fuel with
  | zero =>
    intro it h
    rcases h with h | ⟨_, h1, h2, h3, h4, h5⟩
    · omega
    · exfalso
      have : (0 : Int) ≤ (max g.lo.row g.hi.row - it.pos.row) * (max g.lo.col g.hi.col - g.lo.col + 1) :=
        mul_nonneg (by omega) (by omega)
      push_cast at h5
      omega
  | succ n ih =>
    intro it h
    unfold mcastCollect
    have hend : (mcastEnd [g]).idx = 1 := by simp [mcastEnd, McastIter.mk']
    rcases h with ⟨h, _⟩ | ⟨h0, h1, h2, h3, h4, h5⟩
    · rw [if_neg (by simp [McastIter.ne, h, hend])]
      exact ends_ok _
    · split
      · refine Ends.bind (ih _ ?_) fun _ _ => ends_ok _
        obtain ⟨⟨d, r, c⟩, i⟩ := it
        simp only at h0 h1 h2 h3 h4 h5
        subst h0
        simp only [McastIter.next, List.getElem?_cons_zero]
        have hmul : (max g.lo.row g.hi.row - r) * (max g.lo.col g.hi.col - g.lo.col + 1) =
            (max g.lo.row g.hi.row - (r + 1)) * (max g.lo.col g.hi.col - g.lo.col + 1) +
              (max g.lo.col g.hi.col - g.lo.col + 1) := by ring
        push_cast at h5
        have hnn : (0 : Int) ≤ (max g.lo.row g.hi.row - r) * (max g.lo.col g.hi.col - g.lo.col + 1) :=
          mul_nonneg (by omega) (by omega)
        by_cases hc : c < g.hi.col
        · rw [if_pos hc, toI16_id (by omega) (by omega)]
          right
          exact ⟨rfl, h1, h2, by show _ ≤ c + 1; omega, by show c + 1 ≤ _; omega, by simp only; omega⟩
        · rw [if_neg hc, toI16_id (by omega) (by omega)]
          by_cases hr : r + 1 > g.hi.row
          · rw [if_pos hr]
            left
            simp only [List.getElem?_cons_succ, List.getElem?_nil]
            exact ⟨trivial, by omega⟩
          · rw [if_neg hr]
            right
            refine ⟨rfl, by show _ ≤ r + 1; omega, by show r + 1 ≤ _; omega, le_rfl, by simp only; omega, ?_⟩
            simp only
            omega
      · exact ends_ok _

theorem mcastCoords_single_ends (g : CoordGrid) (hr0 : 0 ≤ g.lo.row) (hr1 : g.lo.row < 32767)
    (hr2 : g.hi.row < 32767) (hc0 : 0 ≤ g.lo.col) (hc1 : g.hi.col ≤ 32767) :
    (mcastCoords [g]).Ends := by
  unfold mcastCoords
  apply mcastCollect_single g hr0 hr1 hr2 hc0 hc1
  right
  simp only [mcastBegin, McastIter.mk', List.getElem?_cons_zero, mcastFuel, List.foldr_cons, List.foldr_nil]
  refine ⟨trivial, le_rfl, by omega, le_rfl, by omega, ?_⟩
  have h1 : (0 : Int) ≤ (max g.lo.row g.hi.row - g.lo.row + 1) * (max g.lo.col g.hi.col - g.lo.col + 1) :=
    mul_nonneg (by omega) (by omega)
  have h2 : (max g.lo.row g.hi.row - g.lo.row + 1) * (max g.lo.col g.hi.col - g.lo.col + 1) =
    (max g.lo.row g.hi.row - g.lo.row) * (max g.lo.col g.hi.col - g.lo.col + 1) +
      (max g.lo.col g.hi.col - g.lo.col + 1) := by ring
  omega

/-! ### Routes -/

/-- What validation ensures about source and destination. -/
structure Checked (dev : Device) (t : Transfer) : Prop where
  src : dev.OnG t.src.row t.src.col
  uni : ∀ e, t.dst = .unicast e → dev.OnG e.row e.col
  rect : ∀ g, t.dst = .mcast [g] → dev.OnG g.lo.row g.lo.col ∧ dev.OnG g.hi.row g.hi.col

theorem unicastRoute_ends {dev : Device} (hl : dev.nLinks ≤ 32768) (hc : 0 < dev.chips) (noc : Noc) {s e : Coord}
    (hs : dev.OnG s.row s.col) (he : dev.OnG e.row e.col) : (dev.unicastRoute noc s e).Ends := by
  rw [dev.unicastRoute_eq hl hc noc s e hs he]
  exact ends_ok _

theorem routeSingle_ends {dev : Device} (hn : dev.nLinks ≤ 32768) (hc : 0 < dev.chips) (ord : List Int → List Int) {t : Transfer}
    (h : Checked dev t) : (dev.routeSingle ord t.noc t.src t.dst).Ends := by
  unfold Device.routeSingle
  cases hdst : t.dst with
  | unicast e => exact unicastRoute_ends hn hc _ h.src (h.uni e hdst)
  | mcast gs =>
    simp only
    unfold Device.multicastRoute
    refine (ends_assert _).bind fun u hu => ?_
    have hl := assert_eq_ok.mp hu
    simp only [decide_eq_true_eq] at hl
    obtain ⟨g, rfl⟩ := List.length_eq_one_iff.mp hl
    obtain ⟨hlo, hhi⟩ := h.rect g hdst
    simp only
    have hmem : ∀ {a b x : Int}, x ∈ Device.intRange a b → a ≤ x ∧ x ≤ b := by
      intro a b x hx
      obtain ⟨k, hk, rfl⟩ := List.mem_map.mp hx
      have := List.mem_range.mp hk
      omega
    cases t.noc with
    | noc0 =>
      refine (ends_foldlM _ _ fun s c hm => ?_).bind fun _ _ => ends_pure _
      have := hmem hm
      obtain ⟨⟨a1, a2⟩, a3, a4⟩ := hlo
      obtain ⟨⟨b1, b2⟩, b3, b4⟩ := hhi
      exact (unicastRoute_ends (e := ⟨0, g.hi.row, c⟩) hn hc _ h.src ⟨⟨b1, b2⟩, by show _ ≤ c; omega, by show c < _; omega⟩).bind
        fun _ _ => ends_pure _
    | noc1 =>
      refine (ends_foldlM _ _ fun s c hm => ?_).bind fun _ _ => ends_pure _
      have := hmem hm
      obtain ⟨⟨a1, a2⟩, a3, a4⟩ := hlo
      obtain ⟨⟨b1, b2⟩, b3, b4⟩ := hhi
      exact (unicastRoute_ends (e := ⟨0, c, g.hi.col⟩) hn hc _ h.src ⟨⟨by show _ ≤ c; omega, by show c < _; omega⟩, b3, b4⟩).bind
        fun _ _ => ends_pure _

theorem route_ends {dev : Device} (hd : DeviceOk dev) (ord : List Int → List Int) {t : Transfer}
    (h : Checked dev t) : (dev.route ord t.noc t.src t.dst).Ends := by
  unfold Device.route
  split
  · refine (ends_assert _).bind fun _ _ => (ends_assert _).bind fun _ _ => Ends.bind ?_ fun _ _ => ?_
    · exact routeSingle_ends (dev := dev.base) (dev.base_nLinks hd) (by simp [Device.base]) ord
        ⟨h.src, h.uni, h.rect⟩
    · unfold Device.changeRouteDeviceID
      refine ends_mapM _ fun l _ => (getLinkAttributes_ends _ _).bind fun _ _ => getLinkID_ends _ _
  · exact routeSingle_ends hd.ids hd.chips_pos ord h

/-! ### Set-up -/

theorem initTransferState_ends {dev : Device} (hd : DeviceOk dev) (ord : List Int → List Int) {wl : Workload}
    (h : ∀ t ∈ wl.transfers, Checked dev t) : (initTransferState dev ord wl).Ends := by
  unfold initTransferState
  simp only
  refine (ends_foldlM _ _ fun s t ht => ?_).bind fun _ _ => ends_mapM _ fun o _ => by split <;> ends_auto
  unfold initOne
  exact (ends_assert _).bind fun _ _ => (route_ends hd ord (h t ht)).bind fun _ _ => ends_pure _

theorem get_ends (tk : Tracker) (i : Int) : (tk.get i).Ends := by
  unfold Tracker.get; ends_auto

theorem update_ends (tk : Tracker) (i : Int) (e : Nat) : (tk.update i e).Ends := by
  unfold Tracker.update
  split
  · exact (get_ends _ _).bind fun _ _ => ends_ok _
  · exact ends_ok _

theorem addDep_ends (st : List TState × Tracker) (p c d : Nat) : (addDep st p c d).Ends := by
  unfold addDep
  simp only
  split
  · exact ends_ub
  · split
    · exact ends_ub
    · exact ends_ok _

theorem groupDelay_ends (fp : FP) (dev : Device) (t : Transfer) (d : Int) : (groupDelay fp dev t d).Ends := by
  have he : ∀ a b, (addEthDelay fp a b).Ends := by
    intro a b
    unfold addEthDelay
    simp only
    split <;> ends_auto
  unfold groupDelay
  simp only
  split
  · rw [bind_ok]
    split
    · rw [bind_ok]
      split
      · exact he _ _
      · exact ends_ok _
    · exact ends_exc _
  · exact ends_std _

theorem genDependencies_ends (fp : FP) (dev : Device) (bord : List BucketKey → List BucketKey)
    (ts : List TState) : (genDependencies fp dev bord ts).Ends := by
  unfold genDependencies
  refine Ends.bind ?_ fun st _ => Ends.bind ?_ fun st' _ => Ends.bind ?_ fun _ _ => ends_pure _
  · unfold niuPass
    refine Ends.bind ?_ fun _ _ => ?_
    · refine ends_mapM _ fun t _ => Ends.bind ?_ fun _ _ => ends_ok _
      unfold bucketKey
      split
      · exact ends_ok _
      · exact (getLinkAttributes_ends _ _).bind fun _ _ => ends_ok _
    · refine ends_foldlM _ _ fun st k _ => ?_
      unfold chainBucket
      simp only
      exact ends_foldlM _ _ fun st pc _ => addDep_ends _ _ _ _
  · refine ends_foldlM _ _ fun st t _ => ?_
    unfold groupOne
    split
    · simp only
      split
      · exact ends_ub
      · exact (groupDelay_ends _ _ _ _).bind fun _ _ => addDep_ends _ _ _ _
    · exact ends_ok _
  · unfold selfCheck
    refine Ends.bind (ends_foldlM _ _ fun _ _ _ => update_ends _ _ _) fun _ _ => ?_
    split
    · exact ends_exit
    · exact ends_ok _

theorem initSim_ends {fp : FP} {dev : Device} (hd : DeviceOk dev) (ho : HashOrder) {wl : Workload}
    (h : ∀ t ∈ wl.transfers, Checked dev t) : (initSim fp dev ho wl).Ends := by
  unfold initSim
  refine (initTransferState_ends hd _ h).bind fun ts _ => ?_
  simp only
  exact (genDependencies_ends _ _ _ _).bind fun _ _ => ends_pure _

/-! ### Rates -/

/-- No endless iteration over the destination. -/
def IterEnds (t : Transfer) : Prop := ∀ gs, t.dst = .mcast gs → (mcastCoords gs).Ends

theorem sinkIds_ends {dev : Device} {t : Transfer} (h : IterEnds t) : (sinkIds dev t).Ends := by
  unfold sinkIds
  split
  · exact (niuAt_ends _ _ _).bind fun _ _ => ends_ok _
  · rename_i gs hg
    refine Ends.bind ?_ fun _ _ => ends_mapM _ fun _ _ => niuAt_ends _ _ _
    unfold mcastWorkers
    exact (h gs hg).bind fun _ _ => (ends_mapM _ fun _ _ => getCoreType_ends _ _).bind fun _ _ => ends_pure _

theorem addAt_ends (fp : FP) (x : ℚ) (g : List ℚ) (i : Int) : (addAt fp x g i).Ends := by
  unfold addAt; ends_auto

theorem readAt_ends (g : List ℚ) (i : Int) : (readAt g i).Ends := by
  unfold readAt; ends_auto

theorem interpGo_ends (fp : FP) (m : ℚ) (ps n : Nat) : ∀ l, (interpGo fp m ps n l).Ends
  | [] => ends_ub
  | [a] => by unfold interpGo; split <;> ends_auto
  | a :: b :: l => by
    unfold interpGo
    split
    · unfold blendBw
      simp only
      split
      · exact ends_exc _
      · exact (ends_assert _).bind fun _ _ => (ends_assert _).bind fun _ _ => ends_pure _
    · exact interpGo_ends fp m ps n (b :: l)

theorem updateTransferBandwidth_ends (fp : FP) (dev : Device) (ts : List TState) (live : List Nat) :
    (updateTransferBandwidth fp dev ts live).Ends := by
  unfold updateTransferBandwidth
  refine ends_foldlM _ _ fun s i _ => ?_
  unfold updateBwOne
  split
  · exact ends_ub
  · refine Ends.bind ?_ fun _ _ => ends_ok _
    unfold interpolateBW
    exact (ends_assert _).bind fun _ _ => interpGo_ends _ _ _ _ _

/-- All transfers of a list keep ending. -/
def AllIter (ts : List TState) : Prop := ∀ t ∈ ts, IterEnds t.params

theorem AllIter.set {ts : List TState} (h : AllIter ts) {i : Nat} {t t' : TState} (ht : ts[i]? = some t)
    (e : t'.params = t.params) : AllIter (ts.set i t') := by
  intro x hx
  rcases List.mem_or_eq_of_mem_set hx with hx | rfl
  · exact h x hx
  · rw [e]; exact h t (List.mem_of_getElem? ht)

theorem ends_foldlM_inv {α σ : Type} {f : σ → α → Out σ} {P : σ → Prop} (hf : ∀ s a, P s → (f s a).Ends)
    (hp : ∀ s a s', P s → f s a = .ok s' → P s') : ∀ (l : List α) (s : σ), P s → (foldlM f s l).Ends
  | [], s, _ => ends_ok _
  | a :: l, s, h => by
    rw [foldlM_cons]
    exact (hf s a h).bind fun s' hs => ends_foldlM_inv hf hp l s' (hp s a s' h hs)

theorem overallDerate_ends {fp : FP} {dev : Device} {g : Grids} {t : TState} (h : IterEnds t.params) :
    (overallDerate fp dev g t).Ends := by
  unfold overallDerate
  refine Ends.bind ?_ fun _ _ => (niuAt_ends _ _ _).bind fun _ _ => (readAt_ends _ _).bind fun _ _ =>
    Ends.bind ?_ fun _ _ => ends_pure _
  · unfold maxLinkDemand
    exact ends_foldlM _ _ fun _ _ _ => (readAt_ends _ _).bind fun _ _ => ends_ok _
  · unfold sinkDerate
    split
    · exact (niuAt_ends _ _ _).bind fun _ _ => (readAt_ends _ _).bind fun _ _ =>
        (getSinkAbsorptionRate_ends _ _).bind fun _ _ => ends_pure _
    · exact (sinkIds_ends h).bind fun _ _ => Ends.bind
        (ends_foldlM _ _ fun _ _ _ => (readAt_ends _ _).bind fun _ _ => ends_ok _) fun _ _ => ends_pure _

theorem computeRates_ends {fp : FP} {dev : Device} {en : Bool} {sot curr : Nat} {g : Grids} {ts : List TState}
    {live : List Nat} (h : AllIter ts) : (computeRates fp dev en sot curr g ts live).Ends := by
  unfold computeRates
  refine (updateTransferBandwidth_ends _ _ _ _).bind fun ts1 h1 => ?_
  have hb : AllIter ts1 := by
    unfold updateTransferBandwidth at h1
    refine Out.foldlM_ind (P := fun _ (x : List TState) => AllIter x) ?_ _ _ _ h h1
    intro i _ s s' hs hu
    unfold updateBwOne at hu
    split at hu
    · simp at hu
    · rename_i t ht
      obtain ⟨b, _, hu⟩ := bind_eq_ok.mp hu
      rw [← Out.ok.inj hu]
      exact AllIter.set hs ht rfl
  cases en with
  | false => exact ends_ok _
  | true =>
    simp only [if_true]
    unfold modelCongestion
    refine Ends.bind ?_ fun g' _ => Ends.bind ?_ fun _ _ => ends_pure _
    · unfold demands
      refine ends_foldlM _ _ fun s i _ => ?_
      unfold demandOne
      split
      · exact ends_ub
      · rename_i t ht
        simp only
        refine (niuAt_ends _ _ _).bind fun _ _ => (addAt_ends _ _ _ _).bind fun _ _ =>
          (sinkIds_ends (hb t (List.mem_of_getElem? ht))).bind fun _ _ =>
          (ends_foldlM _ _ fun _ _ _ => addAt_ends _ _ _ _).bind fun _ _ =>
          (ends_foldlM _ _ fun _ _ _ => addAt_ends _ _ _ _).bind fun _ _ => ?_
        split
        · exact (ends_foldlM _ _ fun _ _ _ => addAt_ends _ _ _ _).bind fun _ _ => ends_pure _
        · exact ends_pure _
    · refine ends_foldlM_inv (P := AllIter) ?_ ?_ _ _ hb
      · intro s i hs
        unfold derateOne
        split
        · exact ends_ub
        · rename_i t ht
          exact (overallDerate_ends (hs t (List.mem_of_getElem? ht))).bind fun _ _ => ends_ok _
      · intro s i s' hs hu
        unfold derateOne at hu
        split at hu
        · simp at hu
        · rename_i t ht
          obtain ⟨b, _, hu⟩ := bind_eq_ok.mp hu
          rw [← Out.ok.inj hu]
          exact AllIter.set hs ht rfl

/-! ### The loop -/

theorem scanGo_ends (deps : Tracker) (curr : Nat) : ∀ (n : Nat) (s : Scan), (scanGo deps curr n s).Ends
  | 0, s => ends_ok _
  | n + 1, s => by
    unfold scanGo
    split
    · exact ends_ub
    · split
      · split
        · exact ends_ub
        · refine Ends.bind ?_ fun d _ => ?_
          · unfold Tracker.done
            split
            · exact (get_ends _ _).bind fun _ _ => ends_ok _
            · exact ends_ok _
          · split
            · refine Ends.bind ?_ fun _ _ => Ends.bind ?_ fun _ _ => scanGo_ends deps curr n _
              · unfold startAfterDep Tracker.endCyclePlusDelay
                split
                · exact ((get_ends _ _).bind fun _ _ => ends_ok _).bind fun _ _ => ends_ok _
                · exact ends_ok _
              · unfold swap
                split
                · exact ends_ok _
                · exact ends_ub
            · exact scanGo_ends deps curr n s
      · exact ends_ok _

theorem golden_ends (m : GoldenMap) (d : Int) : (m.at d).Ends := by
  unfold GoldenMap.at; ends_auto

theorem updateOne_ends (cfg : SimCfg) (curr sot : Nat) (u : Upd) (i : Nat) :
    (updateOne cfg curr sot u i).Ends := by
  unfold updateOne
  split
  · exact ends_ub
  · refine Ends.bind ?_ fun _ _ => (ends_assert _).bind fun _ _ => ?_
    · unfold Tracker.done
      split
      · exact (get_ends _ _).bind fun _ _ => ends_ok _
      · exact ends_ok _
    · simp only
      refine Ends.bind ?_ fun _ _ => Ends.bind ?_ fun _ _ => ?_
      · unfold cyclesActive Tracker.endCycle
        simp only
        split
        · refine Ends.bind ((get_ends _ _).bind fun _ _ => ends_ok _) fun _ _ => ?_
          · split
            · exact (ends_assert _).bind fun _ _ => (ends_assert _).bind fun _ _ => ends_pure _
            · exact ends_ok _
        · exact ends_ok _
      · unfold toSize; ends_auto
      · split
        · unfold completeOne
          refine Ends.bind ?_ fun _ _ => ?_
          · unfold transferEnd toSize
            simp only
            split
            · exact ends_ub
            · split <;> ends_auto
          · simp only
            exact (ends_foldlM _ _ fun _ _ _ => update_ends _ _ _).bind fun _ _ =>
              (golden_ends _ _).bind fun _ _ => (golden_ends _ _).bind fun _ _ => ends_pure _
        · exact ends_ok _

theorem stepSim_ends {cfg : SimCfg} (hr : ∀ sot curr g ts live, AllIter ts → (cfg.rates sot curr g ts live).Ends)
    {curr : Nat} {s : Sim}
    (hs : ∀ stats s1, activate curr { s with stats := stats } = .ok s1 → AllIter s1.ts) :
    (stepSim cfg curr s).Ends := by
  unfold stepSim
  refine Ends.bind ?_ fun st _ => Ends.bind ?_ fun s1 h1 => (hr _ _ _ _ _ (hs st s1 h1)).bind fun x _ => ?_
  · unfold Stats.insertTimestep
    refine ends_mapM _ fun e _ => ?_
    unfold Stats.insertOne
    refine (golden_ends _ _).bind fun _ _ => ?_
    split <;> exact ends_ok _
  · unfold activate
    exact (scanGo_ends _ _ _ _).bind fun _ _ => ends_pure _
  · refine Ends.bind ?_ fun _ _ => (ends_foldlM _ _ fun _ _ _ => updateOne_ends _ _ _ _ _).bind fun _ _ => ends_pure _
    unfold Stats.updateSim
    exact (ends_mapM _ fun _ _ => getLinkAttributes_ends _ _).bind fun _ _ =>
      (ends_mapM _ fun _ _ => getNIUAttributes_ends _ _).bind fun _ _ => ends_pure _

/-! ### Validation -/

theorem validateTransfer_errors {dev : Device} {gbl : Nat} {s s' : Workload.ValState} {t : Transfer}
    (h : Workload.validateTransfer dev gbl s t = .ok s') :
    s.errors ≤ s'.errors ∧ (s'.errors = s.errors → t.validate dev = .ok true) := by
  unfold Workload.validateTransfer at h
  split at h
  · rw [← Out.ok.inj h]; simp
  · split at h
    · simp at h
    · split at h
      · simp at h
      · rw [← Out.ok.inj h]; simp
      · obtain ⟨v, hv, h⟩ := bind_eq_ok.mp h
        rw [← Out.ok.inj h, hv]
        cases v <;> simp

theorem foldl_errors {α σ : Type} {f : σ → α → Out σ} {err : σ → Nat} {P : α → Prop}
    (hf : ∀ s a s', f s a = .ok s' → err s ≤ err s' ∧ (err s' = err s → P a)) :
    ∀ (l : List α) (s s' : σ), foldlM f s l = .ok s' →
      err s ≤ err s' ∧ (err s' = err s → ∀ a ∈ l, P a)
  | [], s, s', h => by
    rw [← Out.ok.inj h]; simp
  | a :: l, s, s', h => by
    rw [foldlM_cons] at h
    obtain ⟨s1, h1, h⟩ := bind_eq_ok.mp h
    obtain ⟨a1, a2⟩ := hf s a s1 h1
    obtain ⟨b1, b2⟩ := foldl_errors hf l s1 s' h
    refine ⟨le_trans a1 b1, fun e x hx => ?_⟩
    rcases List.mem_cons.mp hx with rfl | hx
    · exact a2 (by omega)
    · exact b2 (by omega) x hx

/-- Every transfer of an accepted workload is valid, for every workload. -/
theorem validate_true {dev : Device} {wl : Workload} (h : wl.validate dev = .ok true) :
    ∀ t ∈ wl.transfers, t.validate dev = .ok true := by
  unfold Workload.validate at h
  obtain ⟨s, hs, h⟩ := bind_eq_ok.mp h
  have he : s.errors = 0 := by simpa using Out.ok.inj h
  have := (foldl_errors (err := Workload.ValState.errors)
    (P := fun ph : Phase => ∀ t ∈ ph.transfers, t.validate dev = .ok true) ?_ _ _ _ hs).2 he
  · intro t ht
    obtain ⟨ph, hph, ht⟩ := List.mem_flatMap.mp ht
    exact this ph hph t ht
  · intro s ph s' h
    unfold Workload.validatePhase at h
    split at h
    · rw [← Out.ok.inj h]; simp
    · split at h
      · simp at h
      · rw [← Out.ok.inj h]; simp
      · have := foldl_errors (f := Workload.validateTransfer dev wl.gblTransferId)
          (err := Workload.ValState.errors) (P := fun t => t.validate dev = .ok true)
          (fun _ _ _ h => validateTransfer_errors h) _ _ _ h
        exact this

theorem checked_of_validate {dev : Device} {t : Transfer} (h : t.validate dev = .ok true) : Checked dev t := by
  unfold Transfer.validate at h
  split at h
  · simp at h
  · have h := Out.ok.inj h
    simp only [Bool.and_eq_true, decide_eq_true_eq] at h
    obtain ⟨⟨⟨⟨_, h1⟩, h2⟩, _⟩, _⟩ := h
    have hc : ∀ c, validCoord dev c = true → dev.OnG c.row c.col := by
      intro c hc
      simp only [validCoord, Bool.and_eq_true, decide_eq_true_eq] at hc
      exact hc
    refine ⟨hc _ h1, fun e he => ?_, fun g hg => ?_⟩
    · rw [he] at h2; exact hc _ h2
    · rw [hg] at h2
      simp only [validDst, List.foldl_cons, List.foldl_nil, Bool.false_or, Bool.and_eq_true] at h2
      exact ⟨hc _ h2.1, hc _ h2.2⟩

/-! ### Whole runs -/

theorem iterEnds_of_checked {dev : Device} (hsmall : dev.rows ≤ 32767 ∧ dev.cols ≤ 32767)
    {ord : List Int → List Int} {t : Transfer} (h : Checked dev t) {r : List Int}
    (hr : dev.route ord t.noc t.src t.dst = .ok r) : IterEnds t := by
  intro gs hg
  have hl : gs.length = 1 := by
    have key : ∀ (d : Device) r, d.routeSingle ord t.noc t.src t.dst = .ok r → gs.length = 1 := by
      intro d r hr
      unfold Device.routeSingle at hr
      rw [hg] at hr
      simp only at hr
      unfold Device.multicastRoute at hr
      obtain ⟨u, hu, _⟩ := bind_eq_ok.mp hr
      simpa using assert_eq_ok.mp hu
    unfold Device.route at hr
    split at hr
    · obtain ⟨_, _, hr⟩ := bind_eq_ok.mp hr
      obtain ⟨_, _, hr⟩ := bind_eq_ok.mp hr
      obtain ⟨r', hr', _⟩ := bind_eq_ok.mp hr
      exact key _ _ hr'
    · exact key _ _ hr
  obtain ⟨g, rfl⟩ := List.length_eq_one_iff.mp hl
  obtain ⟨⟨⟨a1, a2⟩, a3, a4⟩, ⟨b1, b2⟩, b3, b4⟩ := h.rect g hg
  exact mcastCoords_single_ends g a1 (by omega) (by omega) a3 (by omega)

theorem runLoop_ends {fp : FP} {dev : Device} (hd : DeviceOk dev)
    (hsmall : dev.rows ≤ 32767 ∧ dev.cols ≤ 32767) {cpt : Nat} (hpos : 0 < cpt) {en : Bool} {ho : HashOrder}
    {wl : Workload} (h : ∀ t ∈ wl.transfers, Checked dev t) :
    (runLoop (simConfig fp dev cpt wl.golden en) ho wl).Ends := by
  unfold runLoop
  refine (initSim_ends hd ho h).bind fun s0 h0 => ?_
  refine ⟨Props.C13_loop_ends _ hpos s0 fun c s hs => (stepSim_ends ?_ ?_).ne⟩
  · intro sot curr g ts live hts
    exact computeRates_ends hts
  · intro stats s1 hact t ht
    have hr : RatesOk (simConfig fp dev cpt wl.golden en).rates := computeRates_ok fp dev en
    have hi := (hs.inv hr (init_inv h0)).setStats s.grids stats
    obtain ⟨_, acts, ha, _, hs1⟩ := activate_inv hi (Nat.le_add_right c _) hact
    have hnd : (acts.map (·.2)).Nodup := by
      have h1 : (s.queue.map (·.2)).Nodup := (List.nodup_append.mp hi.nodup).1
      have h2 := (ha.map (·.2)).nodup_iff.mpr ((List.filter_sublist (l := s.queue)).map _ |>.nodup h1)
      exact h2
    obtain ⟨i, hi⟩ := List.mem_iff_getElem?.mp ht
    have e : s1.ts = updIds (actT s.deps) (acts.map (·.2)) s.ts := by rw [hs1]
    rw [e, updIds_getElem? _ _ _ hnd] at hi
    obtain ⟨t1, ht1, hp⟩ : ∃ t1, s.ts[i]? = some t1 ∧ t1.params = t.params := by
      split at hi
      · obtain ⟨t1, ht1, rfl⟩ := Option.map_eq_some_iff.mp hi
        exact ⟨t1, ht1, rfl⟩
      · exact ⟨t, hi, rfl⟩
    obtain ⟨t0, ht0, hp0, _⟩ := hs.static_get hr (init_inv h0) ht1
    obtain ⟨hm, hroute, _⟩ := (initSim_ok h0).1.slots i t0 ht0
    rw [← hp, ← hp0]
    exact iterEnds_of_checked hsmall (h _ hm) hroute

theorem computeSummary_ends (dev : Device) (wl : Workload) (d : Int) (s : DevStats) :
    (computeSummary dev wl d s).Ends := by
  unfold computeSummary
  simp only
  refine Ends.bind (ends_mapM _ fun t _ => ?_) fun _ _ => Ends.bind (ends_foldlM _ _ fun _ t _ => ?_)
    fun _ _ => ends_pure _
  · unfold dramBytes
    refine (getCoreType_ends _ _).bind fun _ _ => ?_
    split
    · exact ends_ok _
    · split
      · exact (getCoreType_ends _ _).bind fun _ _ => ends_pure _
      · exact ends_ok _
  · unfold ethOne
    split
    · exact (getCoreType_ends _ _).bind fun _ _ => ends_pure _
    · exact ends_ok _

theorem runSim_ends {fp : FP} {api : Api} (hd : DeviceOk api.dev)
    (hsmall : api.dev.rows ≤ 32767 ∧ api.dev.cols ≤ 32767) (hpos : 0 < api.cfg.cyclesPerTimestep)
    {ho : HashOrder} {wl : Workload} (h : ∀ t ∈ wl.transfers, Checked api.dev t) (en : Bool) :
    (api.runSim fp ho en wl).Ends := by
  unfold Api.runSim
  refine Ends.bind ?_ fun x _ => ?_
  · unfold runSingle
    refine (runLoop_ends hd hsmall hpos h).bind fun e _ => ?_
    cases e with
    | finished s c =>
      simp only
      refine Ends.bind ?_ fun _ _ => ends_pure _
      unfold Stats.finish
      refine ends_mapM _ fun e _ => ?_
      unfold Stats.finishOne
      refine (golden_ends _ _).bind fun _ _ => ?_
      simp only
      split
      · exact ends_ok _
      · split
        · exact ends_ub
        · exact ends_ok _
    | limit s c => exact ends_pure _
  · cases x with
    | inr e => exact ends_pure _
    | inl x =>
      obtain ⟨s, st⟩ := x
      simp only
      refine Ends.bind ?_ fun _ _ => ends_pure _
      unfold Stats.report
      exact ends_mapM _ fun e _ => (computeSummary_ends _ _ _ _).bind fun _ _ => ends_pure _

theorem mapTransfersM_ends {f : Transfer → Out Transfer} (hf : ∀ t, (f t).Ends) (wl : Workload) :
    (wl.mapTransfersM f).Ends := by
  unfold Workload.mapTransfersM
  refine Ends.bind (ends_mapM _ fun ph _ => ?_) fun _ _ => ends_pure _
  exact (ends_mapM _ fun t _ => hf t).bind fun _ _ => ends_pure _

/-- No run of the estimator is endless. -/
theorem runNPE_ends {fp : FP} {api : Api} (hd : DeviceOk api.dev)
    (hsmall : api.dev.rows ≤ 32767 ∧ api.dev.cols ≤ 32767) (hpos : 0 < api.cfg.cyclesPerTimestep)
    (ho : HashOrder) (wl : Workload) : (api.runNPE fp ho wl).Ends := by
  unfold Api.runNPE
  refine Ends.bind ?_ fun wl1 _ => Ends.bind ?_ fun v hv => ?_
  · unfold Api.preprocess
    refine Ends.bind ?_ fun _ _ => Ends.bind ?_ fun _ _ => ends_ok _
    · split
      · unfold Workload.inferInjectionRates
        exact mapTransfersM_ends (fun t => (getSrcInjectionRate_ends _ _).bind fun _ _ => ends_pure _) _
      · exact ends_ok _
    · split
      · unfold Workload.scaleWorkloadSchedule
        refine mapTransfersM_ends (fun t => Ends.bind ?_ fun _ _ => ends_pure _) _
        unfold Workload.scaleOffset
        simp only
        split <;> ends_auto
      · exact ends_ok _
  · unfold Workload.validate
    refine Ends.bind (ends_foldlM _ _ fun s ph _ => ?_) fun _ _ => ends_ok _
    unfold Workload.validatePhase
    split
    · exact ends_ok _
    · split
      · exact ends_ub
      · exact ends_ok _
      · refine ends_foldlM _ _ fun s t _ => ?_
        unfold Workload.validateTransfer
        split
        · exact ends_ok _
        · split
          · exact ends_ub
          · split
            · exact ends_ub
            · exact ends_ok _
            · refine Ends.bind ?_ fun _ _ => ends_ok _
              unfold Transfer.validate
              split
              · exact ends_ub
              · exact ends_ok _
  · cases v with
    | false => exact ends_pure _
    | true =>
      rw [if_pos rfl]
      have hc : ∀ t ∈ wl1.transfers, Checked api.dev t := fun t ht => checked_of_validate (validate_true hv t ht)
      have hrun := fun en => runSim_ends (fp := fp) hd hsmall hpos (ho := ho) hc en
      have : (api.runPerf fp ho wl1).Ends := by
        unfold Api.runPerf
        simp only
        split
        · refine (hrun _).bind fun x _ => ?_
          cases x with
          | inr e => exact ends_ok _
          | inl st =>
            simp only
            refine (hrun _).bind fun y _ => ?_
            cases y <;> exact ends_ok _
        · exact hrun _
      unfold catchNpe
      split
      · exact ends_ok _
      · exact this

end NPE
