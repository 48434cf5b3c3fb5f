import Verif.Model.GenDeps
import Verif.Proofs.Deps

/-
Property C20, continued: the consistency check of dependency generation accepts exactly the consistent dependencies.
-/

namespace NPE.Props
open NPE

/-- The number of times that checkpoint `k` is provided by the transfers. -/
def providers (ts : List TState) (k : Nat) : Nat := (ts.map fun t => t.requiredBy.count (k : Int)).sum

/-- Every checkpoint that is provided exists. -/
def InRange (ts : List TState) (tk : Tracker) : Prop :=
  ∀ t ∈ ts, ∀ id ∈ t.requiredBy, id = -1 ∨ (0 ≤ id ∧ id < tk.length)

theorem providers_eq (ts : List TState) (k : Nat) : (ts.flatMap (·.requiredBy)).count (k : Int) = providers ts k := by
  rw [List.count_flatMap]
  rfl

theorem update_zero {tk : Tracker} {id : Int} (h : id = -1 ∨ (0 ≤ id ∧ id < tk.length)) :
    ∃ tk', Tracker.update tk id 0 = .ok tk' ∧ tk'.length = tk.length ∧
      ∀ k : Nat, tk'[k]? = tk[k]?.map fun c => { c with completed := c.completed + if (k : Int) = id then 1 else 0 } := by
  rcases h with rfl | ⟨h1, h2⟩
  · refine ⟨tk, rfl, rfl, fun k => ?_⟩
    have : ¬ (k : Int) = -1 := by omega
    simp only [this, if_false, Nat.add_zero]
    exact Option.map_id'.symm
  · obtain ⟨n, rfl⟩ := Int.eq_ofNat_of_zero_le h1
    have hn : n < tk.length := by omega
    have hg : tk.get (n : Int) = .ok tk[n] := by
      unfold Tracker.get
      rw [if_neg (by omega)]
      simp only [Int.toNat_natCast]
      rw [List.getElem?_eq_getElem hn]
    have hdef : Tracker.defined (n : Int) = true := by
      have : (n : Int) ≠ -1 := by omega
      simp [Tracker.defined, Tracker.UNDEFINED, this]
    refine ⟨tk.set n { tk[n] with completed := tk[n].completed + 1 }, ?_, List.length_set, fun k => ?_⟩
    · unfold Tracker.update
      rw [if_pos hdef, hg, Out.bind_ok, Int.toNat_natCast, Nat.max_zero]
    · rw [List.getElem?_set]
      by_cases hk : n = k
      · subst hk
        simp [hn]
      · have : ¬ (k : Int) = n := by omega
        simp only [hk, this, if_false, Nat.add_zero]
        exact Option.map_id'.symm

theorem update_bad {tk : Tracker} {id : Int} (h : ¬ (id = -1 ∨ (0 ≤ id ∧ id < tk.length))) : Tracker.update tk id 0 = .exc .undef := by
  have hdef : Tracker.defined id = true := by
    have : id ≠ -1 := by omega
    simp [Tracker.defined, Tracker.UNDEFINED, this]
  unfold Tracker.update Tracker.get
  rw [if_pos hdef]
  by_cases h0 : id < 0
  · rw [if_pos h0]; rfl
  · rw [if_neg h0, List.getElem?_eq_none (by omega)]; rfl

theorem updates_zero : ∀ (l : List Int) (tk : Tracker), (∀ id ∈ l, id = -1 ∨ (0 ≤ id ∧ id < tk.length)) →
    ∃ tk', Out.foldlM (fun tk id => Tracker.update tk id 0) tk l = .ok tk' ∧
      ∀ k : Nat, tk'[k]? = tk[k]?.map fun c => { c with completed := c.completed + l.count (k : Int) }
  | [], tk, _ => ⟨tk, rfl, fun k => by simp⟩
  | id :: l, tk, h => by
    obtain ⟨t1, e1, e2, e3⟩ := update_zero (h id (by simp))
    obtain ⟨t2, e4, e5⟩ := updates_zero l t1 (fun j hj => by rw [e2]; exact h j (by simp [hj]))
    refine ⟨t2, by rw [Out.foldlM_cons, e1, Out.bind_ok]; exact e4, fun k => ?_⟩
    rw [e5 k, e3 k, Option.map_map]
    congr 1
    funext c
    simp only [Function.comp, List.count_cons, beq_iff_eq]
    congr 1
    by_cases hk : (k : Int) = id
    · rw [if_pos hk, if_pos hk.symm]; omega
    · rw [if_neg hk, if_neg (fun e => hk e.symm)]; omega

theorem updates_bad : ∀ (l : List Int) (tk : Tracker), (∃ id ∈ l, ¬ (id = -1 ∨ (0 ≤ id ∧ id < tk.length))) →
    Out.foldlM (fun tk id => Tracker.update tk id 0) tk l = .exc .undef
  | [], _, h => by obtain ⟨_, h, _⟩ := h; cases h
  | id :: l, tk, h => by
    by_cases h1 : id = -1 ∨ (0 ≤ id ∧ id < tk.length)
    · obtain ⟨t1, e1, e2, e3⟩ := update_zero h1
      rw [Out.foldlM_cons, e1, Out.bind_ok]
      obtain ⟨j, hj, hbad⟩ := h
      rcases List.mem_cons.mp hj with rfl | hj
      · exact absurd h1 hbad
      · exact updates_bad l t1 ⟨j, hj, by rw [e2]; exact hbad⟩
    · rw [Out.foldlM_cons, update_bad h1]; rfl

theorem inRange_flat {ts : List TState} {tk : Tracker} :
    InRange ts tk ↔ ∀ id : Int, id ∈ ts.flatMap (·.requiredBy) → id = -1 ∨ (0 ≤ id ∧ id < tk.length) := by
  constructor
  · intro h id hid
    obtain ⟨t, ht, hid⟩ := List.mem_flatMap.mp hid
    exact h t ht id hid
  · intro h t ht id hid
    exact h id (List.mem_flatMap.mpr ⟨t, ht, hid⟩)

/-- C20.  The check accepts dependencies exactly if every provided checkpoint exists and each checkpoint is provided as often as
it demands; it leaves the process exactly if only the second fails. -/
theorem C20_check (ts : List TState) (tk : Tracker) :
    ((∃ tk', selfCheck ts tk = .ok tk') ↔ InRange ts tk ∧ ∀ (k : Nat) (c : Checkpoint), tk[k]? = some c →
      c.completed + providers ts k = c.total) ∧
    (selfCheck ts tk = .exit ↔ InRange ts tk ∧ ∃ (k : Nat) (c : Checkpoint), tk[k]? = some c ∧
      c.completed + providers ts k ≠ c.total) := by
  by_cases hr : InRange ts tk
  · obtain ⟨tk', e1, e2⟩ := updates_zero _ tk (inRange_flat.mp hr)
    have hall : (∀ (k : Nat) (c : Checkpoint), tk[k]? = some c → c.completed + providers ts k = c.total) ↔
        (!tk'.sanityCheck || !tk'.allComplete) = false := by
      rw [Bool.or_eq_false_iff, Bool.not_eq_false', Bool.not_eq_false']
      unfold Tracker.sanityCheck Tracker.allComplete
      rw [List.all_eq_true, List.all_eq_true]
      constructor
      · intro h
        have key : ∀ c ∈ tk', c.completed = c.total := by
          intro c hc
          obtain ⟨k, hk⟩ := List.mem_iff_getElem?.mp hc
          rw [e2 k] at hk
          obtain ⟨c0, hc0, rfl⟩ := Option.map_eq_some_iff.mp hk
          have := h k c0 hc0
          rw [← providers_eq] at this
          exact this
        exact ⟨fun c hc => by simp [key c hc], fun c hc => by simp [key c hc]⟩
      · rintro ⟨_, h⟩ k c hc
        have hk : tk'[k]? = some { c with completed := c.completed + (ts.flatMap (·.requiredBy)).count (k : Int) } := by
          rw [e2 k, hc]; rfl
        have := h _ (List.mem_of_getElem? hk)
        rw [← providers_eq]
        simpa using this
    have hsc : selfCheck ts tk = if !tk'.sanityCheck || !tk'.allComplete then .exit else .ok tk' := by
      unfold selfCheck
      rw [e1, Out.bind_ok]
    constructor
    · rw [and_iff_right hr, hall, hsc]
      cases hb : (!tk'.sanityCheck || !tk'.allComplete) <;> simp
    · have hn : (∃ (k : Nat) (c : Checkpoint), tk[k]? = some c ∧ c.completed + providers ts k ≠ c.total) ↔
          ¬ (!tk'.sanityCheck || !tk'.allComplete) = false := by
        rw [← hall]; push Not; rfl
      rw [and_iff_right hr, hn, hsc]
      cases hb : (!tk'.sanityCheck || !tk'.allComplete) <;> simp
  · have hbad : selfCheck ts tk = .exc .undef := by
      unfold selfCheck
      rw [updates_bad]
      · rfl
      · rw [inRange_flat] at hr
        push Not at hr
        obtain ⟨id, h1, h2⟩ := hr
        exact ⟨id, h1, by rintro (h | ⟨h, h'⟩); exacts [h2.1 h, by have := h2.2 h; omega]⟩
    rw [hbad]
    simp [hr]

/-- Two checkpoints; one transfer provides the first one twice. -/
example (t : TState) : selfCheck [{ t with requiredBy := [0, 0] }] [⟨0, 2, 0, 5⟩] = .ok [⟨2, 2, 0, 5⟩] ∧
    selfCheck [{ t with requiredBy := [0, 0] }] [⟨0, 1, 0, 5⟩] = .exit ∧
    selfCheck [{ t with requiredBy := [0] }] [⟨0, 1, 0, 5⟩, ⟨0, 1, 0, 5⟩] = .exit ∧
    selfCheck [{ t with requiredBy := [1] }] [⟨0, 1, 0, 5⟩] = .exc .undef := ⟨rfl, rfl, rfl, rfl⟩

end NPE.Props
