import Verif.Proofs.FluidOrder
import Verif.Spec.Workload

/-
Two transfers of a run that have the same data and wait for the same.
-/

namespace NPE
open NPE.Spec NPE.Spec.Fluid

/-- Two jobs that differ in nothing but their number. -/
structure Twins (job : Nat → Job) (i j : Nat) : Prop where
  data : SameData (job i).t (job j).t
  route : (job j).route = (job i).route
  after : (job j).after = (job i).after

theorem Twins.run {job : Nat → Job} {i j : Nat} (T : Twins job i j) {fl : ℚ → ℚ} {cpt : Nat} {speed : Speed}
    (hs : ∀ curr σ, speed curr σ j = speed curr σ i) (k : Nat) :
    Fluid.run fl job cpt speed k j = Fluid.run fl job cpt speed k i := by
  induction k with
  | zero => rfl
  | succ k ih =>
    have hst : Fluid.start job ((k + 1) * cpt) (Fluid.run fl job cpt speed k) j =
        Fluid.start job ((k + 1) * cpt) (Fluid.run fl job cpt speed k) i := by
      unfold Fluid.start Fluid.begins
      rw [ih, T.data.offset, T.after]
    show Fluid.advance fl job cpt speed _ _ j = Fluid.advance fl job cpt speed _ _ i
    unfold Fluid.advance Fluid.credit
    rw [hst, hs, T.data.bytes, T.after]

theorem Twins.alone {job : Nat → Job} {i j : Nat} (T : Twins job i j) (fp : FP) (dev : Device) (curr : Nat) (σ : Fluid.State) :
    alone fp dev job curr σ j = alone fp dev job curr σ i := own_same fp dev T.data

theorem Twins.sharedIn {job : Nat → Job} {i j : Nat} (T : Twins job i j) (fp : FP) (dev : Device) (cpt : Nat)
    (order : Nat → List Nat) (curr : Nat) (σ : Fluid.State) :
    sharedIn fp dev job cpt order curr σ j = sharedIn fp dev job cpt order curr σ i := by
  have hd := T.data
  have e1 : (job j).t.noc = (job i).t.noc := by unfold SameData at hd; rw [← hd]
  have e2 : (job j).t.src = (job i).t.src := by unfold SameData at hd; rw [← hd]
  have e3 : (job j).t.dst = (job i).t.dst := by unfold SameData at hd; rw [← hd]
  have e4 : (job j).t.injectionRate = (job i).t.injectionRate := by unfold SameData at hd; rw [← hd]
  have e5 : own fp dev (job j).t = own fp dev (job i).t := own_same fp dev hd
  unfold Fluid.sharedIn
  simp only [T.route, e1, e2, e3, e4, e5]

theorem twins_of {fp : FP} {dev : Device} {ho : HashOrder} {wl : Workload} {s0 : Sim}
    (h0 : initSim fp dev ho wl = .ok s0) {job : Nat → Job} (hd : Describes job s0) {i j : Nat} {t u : TState}
    (hi : s0.ts[i]? = some t) (hj : s0.ts[j]? = some u) (hs : SameData t.params u.params)
    (hw : ∀ p d, WaitsFor s0 i p d ↔ WaitsFor s0 j p d) : Twins job i j := by
  refine ⟨by rw [(hd i t hi).1, (hd j u hj).1]; exact hs, ?_, ?_⟩
  · rw [(hd i t hi).2.1, (hd j u hj).2.1]
    have r1 := ((initSim_ok h0).1.slots i t hi).2.1
    have r2 := ((initSim_ok h0).1.slots j u hj).2.1
    have e1 : u.params.noc = t.params.noc := by unfold SameData at hs; rw [← hs]
    have e2 : u.params.src = t.params.src := by unfold SameData at hs; rw [← hs]
    have e3 : u.params.dst = t.params.dst := by unfold SameData at hs; rw [← hs]
    rw [e1, e2, e3, r1] at r2
    exact (Out.ok.inj r2).symm
  · have key : ∀ p : Nat × Nat, (job j).after = some p ↔ (job i).after = some p := fun p =>
      ((hd j u hj).2.2 p.1 p.2).trans ((hw p.1 p.2).symm.trans ((hd i t hi).2.2 p.1 p.2).symm)
    cases h1 : (job i).after with
    | none =>
      cases h2 : (job j).after with
      | none => rfl
      | some p => rw [(key p).mp h2] at h1; cases h1
    | some p => exact (key p).mpr h1

theorem same_of_content {t u : Transfer} (h : content t = content u) : SameData t u := by
  unfold content at h
  unfold SameData
  cases t; cases u
  simp only [Transfer.mk.injEq] at h ⊢
  tauto

/-- Workloads with the same transfers in different phases. -/
theorem parallel_phases {fp : FP} {dev : Device} {ho ho' : HashOrder} (hl : ho'.links = ho.links) {wl wl' : Workload}
    {s0 s0' : Sim} (D : wl.Dense) (D' : wl'.Dense)
    (hc : wl.transfers.map content = wl'.transfers.map content) (h0 : initSim fp dev ho wl = .ok s0)
    (h0' : initSim fp dev ho' wl' = .ok s0') : Parallel s0 s0' := by
  obtain ⟨ts, I⟩ := init0 h0
  obtain ⟨ts', I'⟩ := init0 h0'
  have l : s0.ts.length = ts.length := by rw [I.states, tsOf_length]
  have l' : s0'.ts.length = ts'.length := by rw [I'.states, tsOf_length]
  have p := init_params D I.state
  have p' := init_params D' I'.state
  have hlen : ts'.length = ts.length := by
    have a := congrArg List.length p
    have b := congrArg List.length p'
    have c := congrArg List.length hc
    simp only [List.length_map] at a b c
    omega
  refine ⟨by omega, fun i t ht => ?_⟩
  have hlt : i < s0.ts.length := (List.getElem?_eq_some_iff.mp ht).1
  have hg' : s0'.ts[i]? = some (s0'.ts[i]'(by omega)) := List.getElem?_eq_getElem (by omega)
  refine ⟨_, hg', ?_, ?_⟩
  · obtain ⟨q, h1, h2, _⟩ := I.get ht
    obtain ⟨q', h1', h2', _⟩ := I'.get hg'
    refine same_of_content ?_
    have e := congrArg (·[i]?) hc
    simp only [← p, ← p', List.getElem?_map, h1, h1', Option.map_some] at e
    rw [← h2, ← h2']
    exact Option.some.inj e
  · obtain ⟨q, h1, h2, _⟩ := I.get ht
    obtain ⟨q', h1', h2', _⟩ := I'.get hg'
    have e := congrArg (·[i]?) hc
    simp only [← p, ← p', List.getElem?_map, h1, h1', Option.map_some] at e
    have hs : SameData q.params q'.params := same_of_content (Option.some.inj e)
    rw [h2, h2'] at hs
    have r1 := ((initSim_ok h0).1.slots i t ht).2.1
    have r2 := ((initSim_ok h0').1.slots i _ hg').2.1
    have e1 : (s0'.ts[i]'(by omega)).params.noc = t.params.noc := by unfold SameData at hs; rw [← hs]
    have e2 : (s0'.ts[i]'(by omega)).params.src = t.params.src := by unfold SameData at hs; rw [← hs]
    have e3 : (s0'.ts[i]'(by omega)).params.dst = t.params.dst := by unfold SameData at hs; rw [← hs]
    rw [e1, e2, e3, hl, r1] at r2
    exact (Out.ok.inj r2).symm

end NPE
