import Verif.Proofs.Scan

/-
One transfer in the update loop, and the dependency tracker.
-/

namespace NPE

/-- The part of a transfer that the loop never changes. -/
def stat (t : TState) : Transfer × List Int × Int × List Int :=
  (t.params, t.route, t.dependsOn, t.requiredBy)

/-- A rate computation may only change bandwidths. -/
def RatesOk (r : Rates) : Prop :=
  ∀ sot curr g ts live ts' g', r sot curr g ts live = .ok (ts', g') →
    ts'.length = ts.length ∧
    ∀ (i : Nat) (t t' : TState), ts[i]? = some t → ts'[i]? = some t' → t' = { t with bw := t'.bw }

/-- Effect of one completion on a checkpoint. -/
def bump (e : Nat) (cp : Checkpoint) : Checkpoint :=
  { cp with completed := cp.completed + 1, endc := max cp.endc e }

/-- `updateCheckpoint` for a list of distinct, valid checkpoint ids. -/
theorem foldlM_update {e : Nat} : ∀ (l : List Int) (tk tk' : Tracker),
    Out.foldlM (fun tk c => Tracker.update tk c e) tk l = .ok tk' →
    l.Nodup → (∀ j ∈ l, j ≠ -1) →
    tk'.length = tk.length ∧ (∀ j ∈ l, 0 ≤ j ∧ j.toNat < tk.length) ∧
    ∀ k : Nat, tk'[k]? = if (k : Int) ∈ l then tk[k]?.map (bump e) else tk[k]? := by
  intro l
  induction l with
  | nil =>
    intro tk tk' h _ _
    simp only [Out.foldlM_nil, Out.ok.injEq] at h
    subst h; simp
  | cons j l ih =>
    intro tk tk' h hnd hne
    rw [Out.foldlM_cons] at h
    obtain ⟨tk1, h1, h⟩ := Out.bind_eq_ok.mp h
    rw [List.nodup_cons] at hnd
    obtain ⟨hl, hv, hg⟩ := ih tk1 tk' h hnd.2 (fun j hj => hne j (by simp [hj]))
    have hj : j ≠ -1 := hne j (by simp)
    simp only [Tracker.update, Tracker.defined, Tracker.UNDEFINED, ne_eq, hj, not_false_eq_true,
      decide_true, if_true] at h1
    obtain ⟨cp, hcp, h1⟩ := Out.bind_eq_ok.mp h1
    obtain ⟨hj0, hcp⟩ := Tracker.get_eq_ok.mp hcp
    simp only [Out.ok.injEq] at h1
    have hjlt : j.toNat < tk.length := (List.getElem?_eq_some_iff.mp hcp).1
    have hl1 : tk1.length = tk.length := by rw [← h1]; simp
    refine ⟨by rw [hl, hl1], ?_, ?_⟩
    · intro j' hj'
      rcases List.mem_cons.mp hj' with rfl | hj'
      · exact ⟨hj0, hjlt⟩
      · have := hv j' hj'; rw [hl1] at this; exact this
    · intro k
      rw [hg k, ← h1, List.getElem?_set]
      by_cases hk : j.toNat = k
      · subst hk
        have hkj : ((j.toNat : Nat) : Int) = j := Int.toNat_of_nonneg hj0
        rw [hkj, if_neg hnd.1]
        rw [if_pos rfl, if_pos hjlt, if_pos (by simp), hcp]
        rfl
      · have hkj : (k : Int) ≠ j := by omega
        simp [hk, hkj]

/-- What the update of one transfer does. -/
structure Updated (cfg : SimCfg) (curr sot : Nat) (u u' : Upd) (id : Nat) where
  t : TState
  cyc : Nat
  mx : Nat
  get : u.ts[id]? = some t
  done : u.deps.done t.dependsOn curr = .ok true
  cycles : cyclesActive cfg.cpt curr sot t u.deps = .ok cyc
  maxB : toSize (cfg.fp.f32.fl (cfg.fp.f32.fl cyc * t.bw)) = .ok mx
  res : (t.params.totalBytes ≠ t.moved + min (t.params.totalBytes - t.moved) mx ∧
      u' = { u with ts := (u.ts.set id
        { t with moved := t.moved + min (t.params.totalBytes - t.moved) mx }) }) ∨
    (t.params.totalBytes = t.moved + min (t.params.totalBytes - t.moved) mx ∧
      ∃ e deps' g gm, transferEnd cfg.fp sot t (min (t.params.totalBytes - t.moved) mx) = .ok e ∧
        Out.foldlM (fun tk c => Tracker.update tk c (e % 4294967296)) u.deps t.requiredBy
          = .ok deps' ∧
        cfg.golden.at t.params.src.dev = .ok g ∧ cfg.golden.at MESH_DEVICE = .ok gm ∧
        u' = { ts := (u.ts.set id
                 { t with moved := t.params.totalBytes, endc := e % 4294967296 })
               deps := deps'
               stats := (u.stats.updateWorst t.params.src.dev t.params.offset
                 (e % 4294967296) g).updateWorst MESH_DEVICE t.params.offset
                 (e % 4294967296) gm })

theorem updateOne_ok {cfg : SimCfg} {curr sot : Nat} {u u' : Upd} {id : Nat}
    (h : updateOne cfg curr sot u id = .ok u') : Nonempty (Updated cfg curr sot u u' id) := by
  unfold updateOne at h
  cases ht : u.ts[id]? with
  | none => simp [ht] at h
  | some t =>
    simp only [ht] at h
    obtain ⟨d, hd, h⟩ := Out.bind_eq_ok.mp h
    obtain ⟨_, ha, h⟩ := Out.bind_eq_ok.mp h
    rw [Out.assert_eq_ok] at ha
    rw [ha] at hd
    obtain ⟨c, hc, h⟩ := Out.bind_eq_ok.mp h
    obtain ⟨mx, hmx, h⟩ := Out.bind_eq_ok.mp h
    refine ⟨⟨t, c, mx, ht, hd, hc, hmx, ?_⟩⟩
    split at h
    · rename_i heq
      right
      refine ⟨heq, ?_⟩
      unfold completeOne at h
      obtain ⟨e, he, h⟩ := Out.bind_eq_ok.mp h
      obtain ⟨deps', hdeps, h⟩ := Out.bind_eq_ok.mp h
      obtain ⟨g, hg, h⟩ := Out.bind_eq_ok.mp h
      obtain ⟨gm, hgm, h⟩ := Out.bind_eq_ok.mp h
      simp only [Out.pure_eq, Out.ok.injEq] at h
      refine ⟨e, deps', g, gm, ?_, hdeps, hg, hgm, ?_⟩
      · rw [← he]; rfl
      · rw [← h, ← heq]
    · rename_i hne
      left
      simp only [Out.ok.injEq] at h
      exact ⟨hne, h.symm⟩

end NPE
