import Verif.Proofs.Topology

/-
Python's `int` on texts.
-/

namespace NPE.Fabric
open NPE.Spec.Fabric NPE.Spec.Analyze

theorem isDigit_iff {c : Char} {v : Nat} : IsDigit c v ↔ c.isDigit = true ∧ c.toNat - 48 = v := by
  constructor
  · rintro ⟨h, rfl⟩
    interval_cases v <;> decide
  · rintro ⟨h, rfl⟩
    obtain ⟨h1, h2⟩ := Analyze.digit_of_isDigit h
    refine ⟨h2, ?_⟩
    rw [h1]
    generalize c.toNat - 48 = d at h2
    interval_cases d <;> decide

theorem pyDigits_grouped {l : List Char} {n : Nat} (h : Grouped l n) : ∀ r, pyDigits 0 false (l ++ r) = pyDigits n true r := by
  induction h with
  | one h =>
    intro r
    obtain ⟨h1, h2⟩ := isDigit_iff.mp h
    show pyDigits 0 false (_ :: r) = _
    rw [pyDigits, if_pos h1, h2, Nat.mul_zero, Nat.zero_add]
  | digit hl h ih =>
    intro r
    obtain ⟨h1, h2⟩ := isDigit_iff.mp h
    rw [List.append_assoc, ih]
    show pyDigits _ true (_ :: r) = _
    rw [pyDigits, if_pos h1, h2]
  | underscore hl h ih =>
    intro r
    obtain ⟨h1, h2⟩ := isDigit_iff.mp h
    rw [List.append_assoc, ih]
    show pyDigits _ true ('_' :: _ :: r) = _
    rw [pyDigits, if_neg (by decide), if_pos ⟨rfl, rfl⟩, pyDigits, if_pos h1, h2]

/-- What has been read before the rest. -/
inductive Before : List Char → Nat → Bool → Prop
  | none : Before [] 0 false
  | digit {l : List Char} {n : Nat} (h : Grouped l n) : Before l n true
  | underscore {l : List Char} {n : Nat} (h : Grouped l n) : Before (l ++ ['_']) n false

theorem grouped_of_pyDigits : ∀ (l p : List Char) (acc : Nat) (b : Bool) (m : Nat), Before p acc b →
    pyDigits acc b l = some m → Grouped (p ++ l) m := by
  intro l
  induction l with
  | nil =>
    intro p acc b m hp h
    cases hp with
    | none => cases h
    | digit hp => rw [List.append_nil, ← Option.some.inj h]; exact hp
    | underscore hp => cases h
  | cons c l ih =>
    intro p acc b m hp h
    rw [pyDigits] at h
    have e : p ++ c :: l = (p ++ [c]) ++ l := by rw [List.append_assoc]; rfl
    split at h
    · rename_i hc
      have hd : IsDigit c (c.toNat - 48) := isDigit_iff.mpr ⟨hc, rfl⟩
      rw [e]
      refine ih _ _ _ _ (.digit ?_) h
      cases hp with
      | none => rw [Nat.mul_zero, Nat.zero_add]; exact .one hd
      | digit hp => exact .digit hp hd
      | underscore hp => rw [List.append_assoc]; exact .underscore hp hd
    · split at h
      · rename_i hc
        rw [e]
        refine ih _ _ _ _ ?_ h
        obtain ⟨rfl, rfl⟩ := hc
        cases hp with
        | digit hp => exact .underscore hp
      · cases h

theorem pyDigits_iff {l : List Char} {n : Nat} : pyDigits 0 false l = some n ↔ Grouped l n :=
  ⟨fun h => grouped_of_pyDigits l [] 0 false n .none h, fun h => by
    have := pyDigits_grouped h []
    rw [List.append_nil] at this
    rw [this]; rfl⟩

theorem grouped_head {l : List Char} {n : Nat} (h : Grouped l n) : ∃ c r, l = c :: r ∧ c.isDigit = true := by
  induction h with
  | one h => exact ⟨_, [], rfl, (isDigit_iff.mp h).1⟩
  | digit hl h ih => obtain ⟨c, r, rfl, hc⟩ := ih; exact ⟨c, _, rfl, hc⟩
  | underscore hl h ih => obtain ⟨c, r, rfl, hc⟩ := ih; exact ⟨c, _, rfl, hc⟩

theorem grouped_last {l : List Char} {n : Nat} (h : Grouped l n) : ∃ r c, l = r ++ [c] ∧ c.isDigit = true := by
  cases h with
  | one h => exact ⟨[], _, rfl, (isDigit_iff.mp h).1⟩
  | digit hl h => exact ⟨_, _, rfl, (isDigit_iff.mp h).1⟩
  | underscore hl h => exact ⟨_ ++ ['_'], _, by rw [List.append_assoc]; rfl, (isDigit_iff.mp h).1⟩

theorem pySigned_iff {l : List Char} {n : Int} : pySigned l = some n ↔ Signed l n := by
  constructor
  · intro h
    unfold pySigned at h
    split at h
    · obtain ⟨m, h1, rfl⟩ := Option.map_eq_some_iff.mp h
      exact .minus (pyDigits_iff.mp h1)
    · obtain ⟨m, h1, rfl⟩ := Option.map_eq_some_iff.mp h
      exact .plus (pyDigits_iff.mp h1)
    · obtain ⟨m, h1, rfl⟩ := Option.map_eq_some_iff.mp h
      exact .plain (pyDigits_iff.mp h1)
  · intro h
    cases h with
    | plain h =>
      obtain ⟨c, r, rfl, hc⟩ := grouped_head h
      obtain ⟨n1, n2⟩ := digit_not_sign hc
      unfold pySigned
      split
      · rename_i e; exact absurd (List.cons.inj e).1 n1
      · rename_i e; exact absurd (List.cons.inj e).1 n2
      · rw [pyDigits_iff.mpr h]; rfl
    | plus h => show Option.map _ _ = _; rw [pyDigits_iff.mpr h]; rfl
    | minus h => show Option.map _ _ = _; rw [pyDigits_iff.mpr h]; rfl

theorem isSpace_iff {c : Char} : isSpace c = true ↔ Blank c := by
  unfold isSpace Blank
  simp only [Bool.or_eq_true, decide_eq_true_eq, List.mem_cons, List.not_mem_nil, or_false, or_assoc]

theorem signed_ends {l : List Char} {n : Int} (h : Signed l n) :
    (∃ c r, l = c :: r ∧ isSpace c = false) ∧ ∃ r c, l = r ++ [c] ∧ isSpace c = false := by
  cases h with
  | plain h =>
    obtain ⟨c, r, e, hc⟩ := grouped_head h
    obtain ⟨r', c', e', hc'⟩ := grouped_last h
    exact ⟨⟨c, r, e, digit_not_space hc⟩, ⟨r', c', e', digit_not_space hc'⟩⟩
  | plus h =>
    obtain ⟨r', c', e', hc'⟩ := grouped_last h
    exact ⟨⟨'+', _, rfl, by decide⟩, ⟨'+' :: r', c', by rw [e']; rfl, digit_not_space hc'⟩⟩
  | minus h =>
    obtain ⟨r', c', e', hc'⟩ := grouped_last h
    exact ⟨⟨'-', _, rfl, by decide⟩, ⟨'-' :: r', c', by rw [e']; rfl, digit_not_space hc'⟩⟩

theorem dropSpace_front {a l : List Char} (ha : ∀ c ∈ a, isSpace c = true) : (a ++ l).dropWhile isSpace = l.dropWhile isSpace := by
  induction a with
  | nil => rfl
  | cons c a ih =>
    rw [List.cons_append, List.dropWhile_cons, if_pos (ha c List.mem_cons_self)]
    exact ih fun x hx => ha x (List.mem_cons_of_mem _ hx)

theorem takeSpace_all {l : List Char} {c : Char} (h : c ∈ l.takeWhile isSpace) : isSpace c = true := by
  induction l with
  | nil => cases h
  | cons x l ih =>
    rw [List.takeWhile_cons] at h
    split at h
    · rename_i hx
      rcases List.mem_cons.mp h with rfl | h
      · exact hx
      · exact ih h
    · cases h

/-- `int` accepts exactly the numerals. -/
theorem pyInt_iff {s : List Char} {n : Int} : pyInt s = some n ↔ Numeral s n := by
  constructor
  · intro h
    refine ⟨s.takeWhile isSpace, ((s.dropWhile isSpace).reverse.dropWhile isSpace).reverse,
      ((s.dropWhile isSpace).reverse.takeWhile isSpace).reverse, ?_, ?_, ?_, pySigned_iff.mp h⟩
    · rw [List.append_assoc, ← List.reverse_append, List.takeWhile_append_dropWhile, List.reverse_reverse,
        List.takeWhile_append_dropWhile]
    · intro c hc; exact isSpace_iff.mp (takeSpace_all hc)
    · intro c hc; exact isSpace_iff.mp (takeSpace_all (List.mem_reverse.mp hc))
  · rintro ⟨a, l, b, rfl, ha, hb, hl⟩
    obtain ⟨⟨c, r, e, hc⟩, ⟨r', c', e', hc'⟩⟩ := signed_ends hl
    unfold pyInt
    rw [List.append_assoc, dropSpace_front fun c hc => isSpace_iff.mpr (ha c hc)]
    have h1 : (l ++ b).dropWhile isSpace = l ++ b := by
      rw [e, List.cons_append, List.dropWhile_cons, hc]; rfl
    rw [h1, List.reverse_append, dropSpace_front fun c hc => isSpace_iff.mpr (hb c (List.mem_reverse.mp hc))]
    have h2 : l.reverse.dropWhile isSpace = l.reverse := by
      rw [e', List.reverse_append, List.reverse_singleton, List.singleton_append, List.dropWhile_cons, hc']; rfl
    rw [h2, List.reverse_reverse]
    exact pySigned_iff.mpr hl

theorem mem_of_lookup {κ α : Type} [BEq κ] [LawfulBEq κ] {l : List (κ × α)} {k : κ} {v : α} (h : l.lookup k = some v) :
    (k, v) ∈ l := by
  induction l with
  | nil => cases h
  | cons e l ih =>
    rw [List.lookup_cons] at h
    split at h
    · rename_i hk
      rw [eq_of_beq hk, ← Option.some.inj h]
      exact List.mem_cons_self
    · exact List.mem_cons_of_mem _ (ih h)

end NPE.Fabric
