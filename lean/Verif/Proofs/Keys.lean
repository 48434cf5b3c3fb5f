import Verif.Proofs.Finish
import Verif.Proofs.TotalApi
import Verif.Model.Directory

/-
Results have one entry for each device, whatever the transfers are.
-/

namespace NPE
open NPE.Spec

namespace Stats

theorem modify_subset (d : Int) (f : DevStats → DevStats) : ∀ (st : Stats) (x : Int),
    x ∈ (st.modify d f).map (·.1) → x = d ∨ x ∈ st.map (·.1)
  | [], x, h => by
    simp only [modify, List.map_cons, List.map_nil, List.mem_singleton] at h
    exact Or.inl h
  | e :: st, x, h => by
    unfold modify at h
    by_cases hd : e.1 = d
    · rw [if_pos hd, List.map_cons, List.mem_cons] at h
      rcases h with h | h
      · exact Or.inl h
      · exact Or.inr (by rw [List.map_cons]; exact List.mem_cons_of_mem _ h)
    · rw [if_neg hd, List.map_cons, List.mem_cons] at h
      rcases h with h | h
      · exact Or.inr (by rw [List.map_cons, h]; exact List.mem_cons_self)
      · rcases modify_subset d f st x h with h | h
        · exact Or.inl h
        · exact Or.inr (by rw [List.map_cons]; exact List.mem_cons_of_mem _ h)

theorem modify_nodup (d : Int) (f : DevStats → DevStats) : ∀ (st : Stats), (st.map (·.1)).Nodup →
    ((st.modify d f).map (·.1)).Nodup
  | [], _ => by simp [modify]
  | e :: st, h => by
    rw [List.map_cons, List.nodup_cons] at h
    unfold modify
    by_cases hd : e.1 = d
    · rw [if_pos hd, List.map_cons, List.nodup_cons, ← hd]
      exact h
    · rw [if_neg hd, List.map_cons, List.nodup_cons]
      refine ⟨fun hc => ?_, modify_nodup d f st h.2⟩
      rcases modify_subset d f st _ hc with hc | hc
      · exact hd hc
      · exact h.1 hc

theorem updateWorst_nodup {d : Int} {off endc : Nat} {g : Nat × Nat} {st : Stats} (h : (st.map (·.1)).Nodup) :
    ((st.updateWorst d off endc g).map (·.1)).Nodup := by
  unfold updateWorst
  split
  · exact modify_nodup _ _ _ h
  · exact h

/-- A pass over all devices keeps the devices. -/
theorem mapM_keys {α β : Type} {f : Int × α → Out (Int × β)} (hf : ∀ e e', f e = .ok e' → e'.1 = e.1) :
    ∀ {l : List (Int × α)} {l' : List (Int × β)}, Out.mapM f l = .ok l' → l'.map (·.1) = l.map (·.1) := by
  intro l
  induction l with
  | nil => intro l' h; obtain rfl := Out.ok.inj h; rfl
  | cons e l ih =>
    intro l' h
    rw [Out.mapM_cons] at h
    obtain ⟨x, h1, h⟩ := Out.bind_eq_ok.mp h
    obtain ⟨y, h2, h⟩ := Out.bind_eq_ok.mp h
    obtain rfl := Out.ok.inj h
    rw [List.map_cons, List.map_cons, hf _ _ h1, ih h2]

theorem insertTimestep_keys {golden : GoldenMap} {a b : Nat} {st st' : Stats}
    (h : st.insertTimestep golden a b = .ok st') : st'.map (·.1) = st.map (·.1) := by
  refine mapM_keys ?_ h
  intro e e' he
  unfold insertOne at he
  obtain ⟨g, _, he⟩ := Out.bind_eq_ok.mp he
  split at he <;> (obtain rfl := Out.ok.inj he; rfl)

theorem updateSim_keys {dev : Device} {g : Grids} {live : List Nat} {st st' : Stats}
    (h : st.updateSim dev g live = .ok st') : st'.map (·.1) = st.map (·.1) := by
  unfold updateSim at h
  obtain ⟨la, _, h⟩ := Out.bind_eq_ok.mp h
  obtain ⟨na, _, h⟩ := Out.bind_eq_ok.mp h
  obtain rfl := Out.ok.inj h
  rw [List.map_map]
  rfl

end Stats

theorem updateOne_nodup {cfg : SimCfg} {curr sot : Nat} {u u' : Upd} {id : Nat}
    (h : updateOne cfg curr sot u id = .ok u') (hn : (u.stats.map (·.1)).Nodup) : (u'.stats.map (·.1)).Nodup := by
  unfold updateOne at h
  split at h
  · cases h
  · obtain ⟨d, _, h⟩ := Out.bind_eq_ok.mp h
    obtain ⟨_, _, h⟩ := Out.bind_eq_ok.mp h
    obtain ⟨c, _, h⟩ := Out.bind_eq_ok.mp h
    obtain ⟨m, _, h⟩ := Out.bind_eq_ok.mp h
    simp only at h
    split at h
    · unfold completeOne at h
      obtain ⟨e, _, h⟩ := Out.bind_eq_ok.mp h
      obtain ⟨_, _, h⟩ := Out.bind_eq_ok.mp h
      obtain ⟨_, _, h⟩ := Out.bind_eq_ok.mp h
      obtain ⟨_, _, h⟩ := Out.bind_eq_ok.mp h
      obtain rfl := Out.ok.inj h
      exact Stats.updateWorst_nodup (Stats.updateWorst_nodup hn)
    · obtain rfl := Out.ok.inj h
      exact hn

theorem updates_nodup {cfg : SimCfg} {curr sot : Nat} : ∀ (l : List Nat) {u u' : Upd},
    Out.foldlM (updateOne cfg curr sot) u l = .ok u' → (u.stats.map (·.1)).Nodup → (u'.stats.map (·.1)).Nodup := by
  intro l
  induction l with
  | nil => intro u u' h hn; obtain rfl := Out.ok.inj h; exact hn
  | cons i l ih =>
    intro u u' h hn
    rw [Out.foldlM_cons] at h
    obtain ⟨v, h1, h⟩ := Out.bind_eq_ok.mp h
    exact ih h (updateOne_nodup h1 hn)

theorem activate_stats {curr : Nat} {s s' : Sim} (h : activate curr s = .ok s') : s'.stats = s.stats := by
  unfold activate at h
  obtain ⟨r, _, h⟩ := Out.bind_eq_ok.mp h
  obtain rfl := Out.ok.inj h
  rfl

theorem stepSim_nodup {cfg : SimCfg} {curr : Nat} {s s' : Sim} (h : stepSim cfg curr s = .ok s')
    (hn : (s.stats.map (·.1)).Nodup) : (s'.stats.map (·.1)).Nodup := by
  unfold stepSim at h
  simp only at h
  obtain ⟨st, h1, h⟩ := Out.bind_eq_ok.mp h
  obtain ⟨s1, h2, h⟩ := Out.bind_eq_ok.mp h
  obtain ⟨⟨ts, g⟩, _, h⟩ := Out.bind_eq_ok.mp h
  obtain ⟨st2, h3, h⟩ := Out.bind_eq_ok.mp h
  obtain ⟨u, h4, h⟩ := Out.bind_eq_ok.mp h
  obtain rfl := Out.ok.inj h
  refine updates_nodup _ h4 ?_
  show (st2.map (·.1)).Nodup
  rw [Stats.updateSim_keys h3, activate_stats h2]
  show (st.map (·.1)).Nodup
  rw [Stats.insertTimestep_keys h1]
  exact hn

theorem reach_nodup {cfg : SimCfg} {s0 s : Sim} {c : Nat} (h : Reach cfg s0 c s) (hn : (s0.stats.map (·.1)).Nodup) :
    (s.stats.map (·.1)).Nodup := by
  induction h with
  | start => exact hn
  | step _ _ h ih => exact stepSim_nodup h ih

theorem runSingle_nodup {fp : FP} {dev : Device} {ho : HashOrder} {cpt : Nat} {en : Bool} {wl : Workload} {s : Sim}
    {st : Stats} (h : runSingle fp dev ho cpt en wl = .ok (.inl (s, st))) : (st.map (·.1)).Nodup := by
  obtain ⟨s0, c, h0, _, _, hr, _, _, hf⟩ := runSingle_ok h
  rw [finish_keys hf]
  refine reach_nodup hr ?_
  rw [(initSim_ok h0).1.stats]
  have := deviceIDs_nodup dev
  unfold Stats.init
  convert this using 1
  rw [List.map_map]
  exact List.map_id _

theorem report_keys {dev : Device} {wl : Workload} {st : Stats} {r : Report} (h : st.report dev wl = .ok r) :
    r.map (·.1) = st.map (·.1) := by
  refine Stats.mapM_keys ?_ h
  intro e e' he
  obtain ⟨s, _, he⟩ := Out.bind_eq_ok.mp he
  obtain rfl := Out.ok.inj he
  rfl

theorem runSimFiles_nodup {fp : FP} {ho : HashOrder} {ord : List (Int × List Int) → List (Int × List Int)} {api : Api}
    {tc : TimelineConfig} {congestion : Bool} {wl : Workload} {r : Report} {files : List (List Char × Json)}
    (h : api.runSimFiles fp ho ord tc congestion wl = .ok (.inl r, files)) : (r.map (·.1)).Nodup := by
  unfold Api.runSimFiles at h
  obtain ⟨x, h1, h⟩ := Out.bind_eq_ok.mp h
  match x, h1, h with
  | .inl (s, st), h1, h =>
    obtain ⟨rep, h2, h⟩ := Out.bind_eq_ok.mp h
    have hk : (rep.map (·.1)).Nodup := by rw [report_keys h2]; exact runSingle_nodup h1
    by_cases he : tc.emit = true
    · rw [if_pos he] at h
      obtain ⟨fs, _, h⟩ := Out.bind_eq_ok.mp h
      cases h
      exact hk
    · rw [if_neg he] at h
      cases h
      exact hk
  | .inr e, _, h => cases h

theorem setCongFree_keys (r : Report) : (setCongFree r).map (·.1) = r.map (·.1) := by
  unfold setCongFree
  rw [List.map_map]
  rfl

theorem runPerfFiles_nodup {fp : FP} {ho : HashOrder} {ord : List (Int × List Int) → List (Int × List Int)} {api : Api}
    {tc : TimelineConfig} {wl : Workload} {r : Report} {files : List (List Char × Json)}
    (h : api.runPerfFiles fp ho ord tc wl = .ok (.inl r, files)) : (r.map (·.1)).Nodup := by
  unfold Api.runPerfFiles at h
  simp only at h
  obtain ⟨⟨x, fs⟩, h1, h⟩ := Out.bind_eq_ok.mp h
  by_cases hc : api.cfg.estimateCongImpact = true
  · rw [if_pos hc] at h
    match x, h1, h with
    | .inr e, _, h => cases h
    | .inl st, h1, h =>
      obtain ⟨⟨y, gs⟩, h2, h⟩ := Out.bind_eq_ok.mp h
      match y, h2, h with
      | .inr _, _, h => cases h; exact runSimFiles_nodup h1
      | .inl _, _, h =>
        cases h
        rw [setCongFree_keys]
        exact runSimFiles_nodup h1
  · rw [if_neg hc] at h
    cases h
    exact runSimFiles_nodup h1

/-- The result of an estimate has one entry for each device. -/
theorem runNPEFiles_nodup {fp : FP} {ho : HashOrder} {ord : List (Int × List Int) → List (Int × List Int)} {api : Api}
    {tc : TimelineConfig} {wl : Workload} {r : Report} {files : List (List Char × Json)}
    (h : api.runNPEFiles fp ho ord tc wl = .ok (.inl r, files)) : (r.map (·.1)).Nodup := by
  unfold Api.runNPEFiles at h
  obtain ⟨w, _, h⟩ := Out.bind_eq_ok.mp h
  obtain ⟨v, _, h⟩ := Out.bind_eq_ok.mp h
  by_cases hv : v = true
  · rw [if_pos hv] at h
    split at h
    · cases h
    · exact runPerfFiles_nodup h
  · rw [if_neg hv] at h
    cases h

namespace Analyze

theorem runNpe_nodup {fp : FP} {o : Options} {s : Setting} {j : Job} {r : Report} {files : List (List Char × Json)}
    (h : runNpe fp o s j = .ok (.inl r, files)) : (r.map (·.1)).Nodup := by
  unfold runNpe at h
  obtain ⟨tc, _, h⟩ := Out.bind_eq_ok.mp h
  obtain ⟨wl, _, h⟩ := Out.bind_eq_ok.mp h
  match wl, h with
  | none, h => cases h
  | some wl, h =>
    obtain ⟨api, _, h⟩ := Out.bind_eq_ok.mp h
    match api, h with
    | none, h => cases h
    | some api, h => exact runNPEFiles_nodup h

end Analyze

end NPE
