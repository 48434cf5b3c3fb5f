import Verif.Proofs.TotalApi

/-
The congestion-free cycle count is not touched by a simulation.
-/

namespace NPE
open Spec

/-- No entry has a congestion-free cycle count. -/
def NoCongFree (st : Stats) : Prop := ∀ e ∈ st, e.2.estimatedCongFree = 0

theorem NoCongFree.modify {st : Stats} {d : Int} {f : DevStats → DevStats}
    (hf : ∀ s, (f s).estimatedCongFree = s.estimatedCongFree) (h : NoCongFree st) :
    NoCongFree (st.modify d f) := by
  induction st with
  | nil =>
    intro e he
    simp only [Stats.modify, List.mem_singleton] at he
    rw [he]; exact hf _
  | cons a st ih =>
    unfold Stats.modify
    split
    · intro e he
      rcases List.mem_cons.mp he with rfl | he
      · rw [hf]; exact h a (List.mem_cons_self ..)
      · exact h e (List.mem_cons_of_mem _ he)
    · intro e he
      rcases List.mem_cons.mp he with rfl | he
      · exact h _ (List.mem_cons_self ..)
      · exact ih (fun e he => h e (List.mem_cons_of_mem _ he)) e he

theorem NoCongFree.updateWorst {st : Stats} {d : Int} {o c : Nat} {g : Nat × Nat} (h : NoCongFree st) :
    NoCongFree (st.updateWorst d o c g) := by
  unfold Stats.updateWorst
  split
  · exact h.modify fun _ => rfl
  · exact h

theorem NoCongFree.of_forall₂ {st st' : Stats}
    (hf : List.Forall₂ (fun e e' : Int × DevStats => e'.2.estimatedCongFree = e.2.estimatedCongFree) st st')
    (h : NoCongFree st) : NoCongFree st' := by
  induction hf with
  | nil => exact h
  | cons a _ ih =>
    intro e he
    rcases List.mem_cons.mp he with rfl | he
    · rw [a]; exact h _ (List.mem_cons_self ..)
    · exact ih (fun e he => h e (List.mem_cons_of_mem _ he)) e he

theorem NoCongFree.updateOne {cfg : SimCfg} {curr sot : Nat} {u u' : Upd} {i : Nat}
    (h : NoCongFree u.stats) (hu : updateOne cfg curr sot u i = .ok u') : NoCongFree u'.stats := by
  unfold NPE.updateOne at hu
  split at hu
  · simp at hu
  · obtain ⟨d, _, hu⟩ := Out.bind_eq_ok.mp hu
    obtain ⟨_, _, hu⟩ := Out.bind_eq_ok.mp hu
    simp only at hu
    obtain ⟨c, _, hu⟩ := Out.bind_eq_ok.mp hu
    obtain ⟨m, _, hu⟩ := Out.bind_eq_ok.mp hu
    split at hu
    · unfold completeOne at hu
      obtain ⟨e, _, hu⟩ := Out.bind_eq_ok.mp hu
      simp only at hu
      obtain ⟨dp, _, hu⟩ := Out.bind_eq_ok.mp hu
      obtain ⟨g, _, hu⟩ := Out.bind_eq_ok.mp hu
      obtain ⟨gm, _, hu⟩ := Out.bind_eq_ok.mp hu
      rw [← Out.ok.inj hu]
      exact h.updateWorst.updateWorst
    · rw [← Out.ok.inj hu]; exact h

theorem NoCongFree.step {cfg : SimCfg} {curr : Nat} {s s' : Sim} (h : NoCongFree s.stats)
    (P : StepParts cfg curr s s') (hs : P.s1.stats = P.stats0) : NoCongFree s'.stats := by
  have h0 : NoCongFree P.stats0 :=
    h.of_forall₂ ((insertTimestep_ok P.ins).imp fun _ _ a => a.2.2.2.1)
  have h2 : NoCongFree P.stats2 := by
    have hu := P.upd
    unfold Stats.updateSim at hu
    obtain ⟨la, _, hu⟩ := Out.bind_eq_ok.mp hu
    obtain ⟨na, _, hu⟩ := Out.bind_eq_ok.mp hu
    rw [← Out.ok.inj hu, hs]
    intro e he
    obtain ⟨e0, he0, rfl⟩ := List.mem_map.mp he
    exact h0 e0 he0
  have h3 := Out.foldlM_ind (P := fun _ (u : Upd) => NoCongFree u.stats)
    (fun _ _ _ _ h hu => h.updateOne hu) _ _ _ h2 P.fold
  rw [P.res]
  exact h3

theorem runSingle_noCongFree {fp : FP} {dev : Device} {ho : HashOrder} {cpt : Nat} {en : Bool}
    {wl : Workload} {s : Sim} {st : Stats} (h : runSingle fp dev ho cpt en wl = .ok (.inl (s, st))) :
    NoCongFree st := by
  obtain ⟨s0, c, h0, hl, hcc, hreach, hlv, hq, hfin⟩ := runSingle_ok h
  clear hl hcc hlv hq
  have hinv := init_inv h0
  have hs : NoCongFree s.stats := by
    have hr : RatesOk (simConfig fp dev cpt wl.golden en).rates := computeRates_ok fp dev en
    clear h hfin
    generalize simConfig fp dev cpt wl.golden en = cfg at hreach hr
    induction hreach with
    | start =>
      rw [(initSim_ok h0).1.stats]
      intro e he
      obtain ⟨d, _, rfl⟩ := List.mem_map.mp he
      rfl
    | @step c sa sb hsa hc h1 ih =>
      obtain ⟨F⟩ := step_facts hr (Nat.le_add_right c _) (hsa.inv hr hinv) h1
      exact ih.step F.P F.stats1
  exact hs.of_forall₂ ((finish_ok hfin).imp fun _ _ a => by
    obtain ⟨_, _, _, _, _, a, _⟩ := a; exact a)

theorem report_entries {dev : Device} {wl : Workload} {st : Stats} {r : Report}
    (h : st.report dev wl = .ok r) :
    List.Forall₂ (fun (e : Int × DevStats) (e' : Int × DevReport) => e'.1 = e.1 ∧ e'.2.stats = e.2) st r := by
  unfold Stats.report at h
  rw [Out.mapM_eq_ok] at h
  refine h.imp fun e e' he => ?_
  obtain ⟨s, _, he⟩ := Out.bind_eq_ok.mp he
  rw [← Out.ok.inj he]
  exact ⟨rfl, rfl⟩

/-- The statistics of a single run do not have a congestion-free cycle count. -/
theorem runSim_noCongFree {fp : FP} {ho : HashOrder} {api : Api} {en : Bool} {wl : Workload} {r : Report}
    (h : api.runSim fp ho en wl = .ok (.inl r)) : ∀ e ∈ r, e.2.stats.estimatedCongFree = 0 := by
  unfold Api.runSim at h
  obtain ⟨x, h1, h⟩ := Out.bind_eq_ok.mp h
  cases x with
  | inr e => simp at h
  | inl x =>
    obtain ⟨s, st⟩ := x
    simp only at h
    obtain ⟨r0, hr0, h⟩ := Out.bind_eq_ok.mp h
    have e : r0 = r := by
      have := Out.ok.inj h
      exact Sum.inl.inj this
    subst e
    have hst := runSingle_noCongFree h1
    intro e he
    obtain ⟨e0, he0, hee⟩ := forall₂_exists_of_mem_right (report_entries hr0) he
    rw [hee.2]; exact hst e0 he0

end NPE
