import Verif.Model.Util
import Mathlib.Data.List.Perm.Basic

/-
The stable sort of the model.
-/

namespace NPE

theorem insertSorted_perm {α : Type} (le : α → α → Bool) (a : α) (l : List α) :
    (insertSorted le a l).Perm (a :: l) := by
  induction l with
  | nil => exact List.Perm.refl _
  | cons b l ih =>
    unfold insertSorted
    split
    · exact List.Perm.refl _
    · exact (List.Perm.cons b ih).trans (List.Perm.swap a b l)

theorem sortBy_perm {α : Type} (le : α → α → Bool) (l : List α) : (sortBy le l).Perm l := by
  induction l with
  | nil => exact List.Perm.refl _
  | cons a l ih => exact (insertSorted_perm le a _).trans (List.Perm.cons a ih)

/-- Insertion into a list that is ordered by `R`, when `R` refines the sorting order. -/
theorem insertSorted_pairwise {α : Type} {le : α → α → Bool} {R : α → α → Prop} {a : α} {l : List α}
    (hl : l.Pairwise R) (h1 : ∀ b ∈ l, le a b = true → R a b) (h2 : ∀ b ∈ l, le a b = false → R b a)
    (htr : ∀ b ∈ l, ∀ c ∈ l, R a b → R b c → R a c) :
    (insertSorted le a l).Pairwise R := by
  induction l with
  | nil => simp [insertSorted]
  | cons b l ih =>
    rw [List.pairwise_cons] at hl
    unfold insertSorted
    split
    · rename_i hab
      have hRab := h1 b (by simp) hab
      rw [List.pairwise_cons, List.pairwise_cons]
      refine ⟨?_, hl⟩
      intro c hc
      rcases List.mem_cons.mp hc with rfl | hc
      · exact hRab
      · exact htr b (by simp) c (by simp [hc]) hRab (hl.1 c hc)
    · rename_i hab
      rw [List.pairwise_cons]
      refine ⟨?_, ih hl.2 (fun c hc => h1 c (by simp [hc])) (fun c hc => h2 c (by simp [hc]))
        (fun b hb c hc => htr b (by simp [hb]) c (by simp [hc]))⟩
      intro c hc
      rcases List.mem_cons.mp ((insertSorted_perm le a l).subset hc) with rfl | hc
      · exact h2 b (by simp) (by simpa using hab)
      · exact hl.1 c hc

/-- Sorting by a total order. -/
theorem sortBy_pairwise {α : Type} {le : α → α → Bool}
    (htot : ∀ a b, le a b = false → le b a = true)
    (htr : ∀ a b c, le a b = true → le b c = true → le a c = true) (l : List α) :
    (sortBy le l).Pairwise (fun a b => le a b = true) := by
  induction l with
  | nil => exact List.Pairwise.nil
  | cons a l ih =>
    exact insertSorted_pairwise ih (fun _ _ h => h) (fun b _ h => htot a b h)
      (fun b _ c _ h1 h2 => htr a b c h1 h2)

/-- Order of two (start, id) pairs. -/
def LexLt (a b : Nat × Nat) : Prop := a.1 < b.1 ∨ (a.1 = b.1 ∧ a.2 < b.2)

instance (a b : Nat × Nat) : Decidable (LexLt a b) := by unfold LexLt; infer_instance

theorem LexLt.trans {a b c : Nat × Nat} (h1 : LexLt a b) (h2 : LexLt b c) : LexLt a c := by
  unfold LexLt at *; omega

theorem LexLt.irrefl (a : Nat × Nat) : ¬ LexLt a a := by unfold LexLt; omega

/-- Stability: sorting by start a list in id order gives the order by start and id. -/
theorem sortBy_stable (l : List (Nat × Nat)) (h : l.Pairwise (fun a b => a.2 < b.2)) :
    (sortBy (fun a b => decide (a.1 ≤ b.1)) l).Pairwise LexLt := by
  induction l with
  | nil => exact List.Pairwise.nil
  | cons a l ih =>
    rw [List.pairwise_cons] at h
    have hm : ∀ b ∈ sortBy (fun a b => decide (a.1 ≤ b.1)) l, a.2 < b.2 := fun b hb =>
      h.1 b ((sortBy_perm _ l).subset hb)
    refine insertSorted_pairwise (ih h.2) ?_ ?_ ?_
    · intro b hb hle
      have := hm b hb
      have : a.1 ≤ b.1 := by simpa using hle
      unfold LexLt; omega
    · intro b hb hle
      have : ¬ a.1 ≤ b.1 := by simpa using hle
      unfold LexLt; omega
    · intro b _ c _ h1 h2
      exact h1.trans h2

/-- In a list without repetitions that is ordered by a strict order, an element has as many
smaller elements as its position. -/
theorem countP_sorted {α : Type} {R : α → α → Prop} [DecidableRel R]
    (hirr : ∀ a, ¬ R a a) (htr : ∀ a b c, R a b → R b c → R a c) :
    ∀ (l : List α) (_ : l.Pairwise R) (m : Nat) (a : α), l[m]? = some a →
      l.countP (fun b => decide (R b a)) = m := by
  intro l
  induction l with
  | nil => intro _ m a h; simp at h
  | cons x l ih =>
    intro hp m a h
    rw [List.pairwise_cons] at hp
    cases m with
    | zero =>
      simp only [List.getElem?_cons_zero, Option.some.injEq] at h
      subst h
      rw [List.countP_cons, List.countP_eq_zero.mpr]
      · simp [hirr]
      · intro b hb
        simp only [decide_eq_true_eq]
        exact fun hc => hirr x (htr _ _ _ (hp.1 b hb) hc)
    | succ m =>
      simp only [List.getElem?_cons_succ] at h
      rw [List.countP_cons, ih hp.2 m a h]
      simp [hp.1 a (List.mem_of_getElem? h)]

end NPE
