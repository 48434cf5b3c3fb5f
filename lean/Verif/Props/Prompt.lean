import Verif.Model.Prompt
import Verif.Proofs.Numeral
import Verif.Props.File

/-
C128: the question before a workload file without the usual extension is read.
-/

namespace NPE.Props

open NPE NPE.Fabric NPE.Spec.Fabric

/-- The user answers `c`: it is the first character that is not blank. -/
def Answers (input : List Char) (c : Char) : Prop :=
  ∃ a b, input = a ++ c :: b ∧ (∀ x ∈ a, Blank x) ∧ ¬ Blank c

theorem dropSpace_cons {l : List Char} {c : Char} {t : List Char} (h : l.dropWhile isSpace = c :: t) : Answers l c := by
  induction l with
  | nil => cases h
  | cons x l ih =>
    rw [List.dropWhile_cons] at h
    by_cases hx : isSpace x = true
    · rw [if_pos hx] at h
      obtain ⟨a, b, e, ha, hc⟩ := ih h
      refine ⟨x :: a, b, by rw [e]; rfl, fun y hy => ?_, hc⟩
      rcases List.mem_cons.mp hy with rfl | hy
      · exact isSpace_iff.mp hx
      · exact ha y hy
    · rw [if_neg hx] at h
      injection h with e1 e2
      subst e1
      exact ⟨[], l, rfl, by simp, fun hb => hx (isSpace_iff.mpr hb)⟩

theorem dropSpace_nil {l : List Char} (h : l.dropWhile isSpace = []) : ∀ x ∈ l, Blank x := by
  induction l with
  | nil => simp
  | cons x l ih =>
    rw [List.dropWhile_cons] at h
    by_cases hx : isSpace x = true
    · rw [if_pos hx] at h
      intro y hy
      rcases List.mem_cons.mp hy with rfl | hy
      · exact isSpace_iff.mp hx
      · exact ih h y hy
    · rw [if_neg hx] at h
      cases h

theorem answers_unique {l : List Char} {c d : Char} (h : Answers l c) (h' : Answers l d) : c = d := by
  obtain ⟨a, b, e, ha, hc⟩ := h
  obtain ⟨a', b', e', ha', hc'⟩ := h'
  rw [e] at e'
  clear e
  induction a generalizing a' with
  | nil =>
    cases a' with
    | nil => exact (List.cons.inj e').1
    | cons x a' =>
      have := (List.cons.inj e').1
      exact absurd (ha' x List.mem_cons_self) (this ▸ hc)
  | cons x a ih =>
    cases a' with
    | nil =>
      have := (List.cons.inj e').1
      exact absurd (ha x List.mem_cons_self) (this.symm ▸ hc')
    | cons x' a' =>
      exact ih (fun y hy => ha y (List.mem_cons_of_mem _ hy)) a' (List.cons.inj e').2
        (fun y hy => ha' y (List.mem_cons_of_mem _ hy))

theorem lower_y (c : Char) (hc : c.toNat < 128) :
    (toLowerAscii c == 'y' || toLowerAscii c == 'Y') = true ↔ c = 'y' ∨ c = 'Y' := by
  have key : ∀ n : Nat, n < 128 → ((toLowerAscii (Char.ofNat n) == 'y' || toLowerAscii (Char.ofNat n) == 'Y') = true ↔
      Char.ofNat n = 'y' ∨ Char.ofNat n = 'Y') := by decide +kernel
  have := key c.toNat hc
  rwa [Char.ofNat_toNat] at this

/-- **C128.** Whoever answers with a character of ASCII has agreed exactly with `y` or `Y`; what is typed after
it does not matter. -/
theorem C128_answer {input : List Char} {c : Char} (h : Answers input c) (hc : c.toNat < 128) :
    ∃ b, promptUser input = .ok b ∧ (b = true ↔ c = 'y' ∨ c = 'Y') := by
  unfold promptUser
  split
  · rename_i hd
    obtain ⟨a, b, e, _, hn⟩ := h
    exact absurd (dropSpace_nil hd c (by rw [e]; simp)) hn
  · rename_i d t hd
    have := answers_unique h (dropSpace_cons hd)
    subst this
    rw [if_neg (by omega)]
    exact ⟨_, rfl, lower_y c hc⟩

/-- **C128, files.** A workload is read from a file without the extension `.json` only if the user agrees. -/
theorem C128_consent (fp : FP) (input : List Char) (path : String) (f : InputFile) (wl : Workload)
    (h : loadPrompted fp input path f = .ok (some wl)) :
    endsWith path ".json" = true ∨ Answers input 'y' ∨ Answers input 'Y' := by
  have hm : f ≠ .missing := by
    rintro rfl
    cases h
  unfold loadPrompted at h
  split at h
  · cases h
  · by_cases he : endsWith path ".json" = true
    · exact Or.inl he
    · refine Or.inr ?_
      rw [if_neg he] at h
      obtain ⟨b, hb, hl⟩ := Out.bind_eq_ok.mp h
      have hb' : b = true := by
        cases b with
        | true => rfl
        | false =>
          exfalso
          cases f with
          | missing => exact hm rfl
          | unparsable => cases hl
          | doc j =>
            unfold loadJSONWorkload at hl
            simp only [Bool.not_false, Bool.and_true, Bool.not_eq_true'] at hl
            rw [if_pos (by simpa using he)] at hl
            cases hl
      subst hb'
      unfold promptUser at hb
      split at hb
      · cases hb
      · rename_i d t hd
        split at hb
        · cases hb
        · rename_i hlt
          have hy := (lower_y d (by omega)).mp (Out.ok.inj hb)
          rcases hy with rfl | rfl
          · exact Or.inl (dropSpace_cons hd)
          · exact Or.inr (dropSpace_cons hd)

/-- **C128, no question.** The input has no influence on missing files and on files with the extension. -/
theorem C128_unasked (fp : FP) (input input' : List Char) (path : String) (f : InputFile)
    (h : f = .missing ∨ endsWith path ".json" = true) : loadPrompted fp input path f = loadPrompted fp input' path f := by
  rcases h with rfl | h
  · rfl
  · unfold loadPrompted
    split
    · rfl
    · rw [if_pos h, if_pos h]

/-- **C128, violated.** Without an answer — a closed or empty standard input, as in automatic runs — reading any
existing file without the extension is undefined behaviour: the uninitialised variable is looked at. -/
theorem C128_violated (fp : FP) (input : List Char) (path : String) (f : InputFile) (hf : f ≠ .missing)
    (hp : endsWith path ".json" = false) (hi : ∀ c ∈ input, Blank c) :
    loadPrompted fp input path f = .ub := by
  have hq : promptUser input = .ub := by
    unfold promptUser
    have : input.dropWhile isSpace = [] := by
      rw [List.dropWhile_eq_nil_iff]
      exact fun c hc => isSpace_iff.mpr (hi c hc)
    rw [this]
  unfold loadPrompted
  split
  · exact absurd rfl hf
  · rw [if_neg (by rw [hp]; decide), hq]
    rfl

/-- Yes, no, and a long answer. -/
example : promptUser " \nYes".toList = .ok true ∧ promptUser "n".toList = .ok false ∧ promptUser "j".toList = .ok false ∧
    promptUser "  \n".toList = .ub := by decide +kernel

example : Answers " \nYes".toList 'Y' := ⟨[' ', '\n'], ['e', 's'], by decide, by simp [Blank], by simp [Blank]⟩

/-- A file with the wrong extension. -/
example : loadPrompted .exact [] "trace.txt" .unparsable = .ub ∧ loadPrompted .exact [] "trace.json" .unparsable = .ok none ∧
    loadPrompted .exact ['N'] "trace.txt" .unparsable = .ok none ∧ loadPrompted .exact [] "trace.txt" .missing = .ok none := by
  refine ⟨C128_violated _ _ _ _ nofun (by decide +kernel) (by simp), ?_, ?_, rfl⟩ <;> decide +kernel

end NPE.Props
