import Verif.Spec.Analyze
import Verif.Proofs.Sort
import Verif.Proofs.TotalApi
import Mathlib.Data.List.Basic
import Mathlib.Tactic.Ring
import Mathlib.Tactic.IntervalCases

/-
Helper lemmas for the analysis script.
-/

namespace NPE.Analyze

open Spec.Analyze

theorem digit_isDigit {d : Nat} (h : d < 10) : (digit d).isDigit = true := by
  interval_cases d <;> decide

theorem digit_val {d : Nat} (h : d < 10) : (digit d).toNat - 48 = d := by
  interval_cases d <;> decide

theorem digit_of_isDigit {c : Char} (h : c.isDigit = true) : c = digit (c.toNat - 48) ∧ c.toNat - 48 < 10 := by
  unfold Char.isDigit at h
  simp only [ge_iff_le, Bool.and_eq_true, decide_eq_true_eq, UInt32.le_iff_toNat_le] at h
  have h1 : 48 ≤ c.toNat := h.1
  have h2 : c.toNat ≤ 57 := h.2
  refine ⟨?_, by omega⟩
  unfold digit
  rw [Nat.add_sub_cancel' h1, Char.ofNat_toNat]

theorem value_snoc (l : List Char) (c : Char) : value (l ++ [c]) = 10 * value l + (c.toNat - 48) := by
  unfold value; rw [List.foldl_append]; rfl

theorem denotes_iff (l : List Char) (n : Nat) :
    Denotes l n ↔ l ≠ [] ∧ (∀ c ∈ l, c.isDigit = true) ∧ value l = n := by
  constructor
  · intro h
    induction h with
    | one d h =>
      refine ⟨by simp, fun c hc => ?_, ?_⟩
      · rw [List.mem_singleton.mp hc]; exact digit_isDigit h
      · show 10 * 0 + ((digit d).toNat - 48) = d
        rw [digit_val h]; omega
    | snoc l n d _ h ih =>
      refine ⟨by simp, fun c hc => ?_, ?_⟩
      · rcases List.mem_append.mp hc with hc | hc
        · exact ih.2.1 c hc
        · rw [List.mem_singleton.mp hc]; exact digit_isDigit h
      · rw [value_snoc, ih.2.2, digit_val h]
  · rintro ⟨hne, hd, rfl⟩
    induction l using List.reverseRecOn with
    | nil => exact absurd rfl hne
    | append_singleton l c ih =>
      have hc := digit_of_isDigit (hd c (by simp))
      rw [value_snoc]
      by_cases hl : l = []
      · subst hl
        have := Denotes.one (c.toNat - 48) hc.2
        rw [← hc.1] at this
        simpa [value] using this
      · have := Denotes.snoc l _ (c.toNat - 48) (ih hl (fun x hx => hd x (by simp [hx]))) hc.2
        rwa [← hc.1] at this

/-- The list does not begin with a digit. -/
def Stop (r : List Char) : Prop := ∀ c r', r = c :: r' → c.isDigit = false

theorem takeWhile_stop {s r : List Char} (hs : ∀ c ∈ s, c.isDigit = true) (hr : Stop r) :
    (s ++ r).takeWhile Char.isDigit = s ∧ (s ++ r).dropWhile Char.isDigit = r := by
  rw [List.takeWhile_append_of_pos hs, List.dropWhile_append_of_pos hs]
  cases r with
  | nil => simp
  | cons c r' => simp [hr c r' rfl]

theorem number_ok {s r : List Char} {n : Nat} (h : Denotes s n) (hr : Stop r) : number? (s ++ r) = some (n, r) := by
  obtain ⟨hne, hd, hv⟩ := (denotes_iff s n).mp h
  obtain ⟨h1, h2⟩ := takeWhile_stop hd hr
  unfold number?
  rw [h1, h2, if_neg hne, hv]

theorem number_inv {l r : List Char} {n : Nat} (h : number? l = some (n, r)) :
    ∃ s, Denotes s n ∧ l = s ++ r := by
  unfold number? at h
  split at h
  · cases h
  · rename_i hne
    have h := Option.some.inj h
    simp only [Prod.mk.injEq] at h
    refine ⟨l.takeWhile Char.isDigit, (denotes_iff _ _).mpr ⟨hne, fun c hc => List.all_eq_true.mp List.all_takeWhile c hc, h.1⟩, ?_⟩
    rw [← h.2, List.takeWhile_append_dropWhile]

theorem literal_iff (p l r : List Char) : literal p l = some r ↔ l = p ++ r := by
  unfold literal
  constructor
  · intro h
    split at h
    · rename_i hp
      obtain ⟨t, rfl⟩ := List.isPrefixOf_iff_prefix.mp hp
      rw [← Option.some.inj h, List.drop_left]
    · cases h
  · rintro rfl
    rw [if_pos (List.isPrefixOf_iff_prefix.mpr (List.prefix_append p r)), List.drop_left]

/-- The end of a name: `.json`, perhaps with a newline. -/
def End (e : List Char) : Prop := e = ".json".toList ∨ e = ".json\n".toList

theorem ending_iff (e : List Char) : ending e = true ↔ End e := by
  unfold ending End
  simp only [Bool.or_eq_true, decide_eq_true_eq]

/-- What follows the name of the operation. -/
def Tail (l : List Char) (n : Nat) (t : Option Nat) : Prop :=
  ∃ s part e, Denotes s n ∧ TracePart t part ∧ End e ∧ l = "ID".toList ++ s ++ part ++ e

theorem end_cons {e : List Char} (h : End e) : ∃ r, e = '.' :: r ∧ '_' ∉ r := by
  rcases h with rfl | rfl
  · exact ⟨"json".toList, rfl, by decide⟩
  · exact ⟨"json\n".toList, rfl, by decide⟩

theorem stop_end {e : List Char} (h : End e) : Stop e := by
  obtain ⟨r, rfl, _⟩ := end_cons h
  intro c r' hc
  rw [← (List.cons.inj hc).1]; decide

theorem stop_cons {c : Char} {r : List Char} (h : c.isDigit = false) : Stop (c :: r) := by
  intro c' r' hc
  rw [← (List.cons.inj hc).1]; exact h

theorem traceAndEnd_iff (l : List Char) (t : Option Nat) :
    traceAndEnd l = some t ↔ ∃ part e, TracePart t part ∧ End e ∧ l = part ++ e := by
  have hnot : ∀ e, End e → literal "_traceID".toList e = none := by
    intro e he
    rcases he with rfl | rfl <;> decide
  constructor
  · intro h
    unfold traceAndEnd at h
    have hplain : (if ending l then some (none : Option Nat) else none) = some t →
        ∃ part e, TracePart t part ∧ End e ∧ l = part ++ e := by
      intro h
      split at h
      · rename_i he
        refine ⟨[], l, .inl ⟨(Option.some.inj h).symm, rfl⟩, (ending_iff l).mp he, rfl⟩
      · cases h
    cases hb : (literal "_traceID".toList l).bind number? with
    | none => rw [hb] at h; exact hplain h
    | some x =>
      obtain ⟨n, r⟩ := x
      rw [hb] at h
      simp only at h
      split at h
      · rename_i he
        obtain ⟨a, ha, hn⟩ := Option.bind_eq_some_iff.mp hb
        obtain ⟨s, hs, rfl⟩ := number_inv hn
        refine ⟨"_traceID".toList ++ s, r, .inr ⟨n, s, (Option.some.inj h).symm, hs, rfl⟩, (ending_iff r).mp he, ?_⟩
        rw [(literal_iff _ _ _).mp ha, List.append_assoc]
      · exact hplain h
  · rintro ⟨part, e, htp, he, rfl⟩
    unfold traceAndEnd
    rcases htp with ⟨rfl, rfl⟩ | ⟨n, s, rfl, hs, rfl⟩
    · rw [List.nil_append, hnot e he, Option.bind_none, if_pos ((ending_iff e).mpr he)]
    · rw [List.append_assoc, (literal_iff _ _ _).mpr rfl, Option.bind_some, number_ok hs (stop_end he)]
      simp only
      rw [if_pos ((ending_iff e).mpr he)]

theorem stop_tail {t : Option Nat} {part e : List Char} (htp : TracePart t part) (he : End e) : Stop (part ++ e) := by
  rcases htp with ⟨_, rfl⟩ | ⟨n, s, _, hs, rfl⟩
  · exact stop_end he
  · exact stop_cons (by decide)

theorem idAndEnd_iff (l : List Char) (n : Nat) (t : Option Nat) : idAndEnd l = some (n, t) ↔ Tail l n t := by
  unfold idAndEnd
  constructor
  · intro h
    obtain ⟨x, hx, h⟩ := Option.bind_eq_some_iff.mp h
    obtain ⟨m, r⟩ := x
    obtain ⟨a, ha, hn⟩ := Option.bind_eq_some_iff.mp hx
    obtain ⟨t', ht, h⟩ := Option.map_eq_some_iff.mp h
    simp only [Prod.mk.injEq] at h
    obtain ⟨rfl, rfl⟩ := h
    obtain ⟨s, hs, rfl⟩ := number_inv hn
    obtain ⟨part, e, htp, he, rfl⟩ := (traceAndEnd_iff _ _).mp ht
    exact ⟨s, part, e, hs, htp, he, by rw [(literal_iff _ _ _).mp ha]; simp only [List.append_assoc]⟩
  · rintro ⟨s, part, e, hs, htp, he, rfl⟩
    rw [List.append_assoc, List.append_assoc, (literal_iff _ _ _).mpr rfl, Option.bind_some,
      number_ok hs (stop_tail htp he), Option.bind_some, (traceAndEnd_iff _ _).mpr ⟨part, e, htp, he, rfl⟩]
    rfl

theorem no_underscore {s : List Char} {n : Nat} (h : Denotes s n) : '_' ∉ s := by
  intro hc
  have := ((denotes_iff s n).mp h).2.1 _ hc
  exact absurd this (by decide)

theorem split_unique {a b x y : List Char} {c : Char} (ha : c ∉ a) (hb : c ∉ b) (h : x ++ c :: y = a ++ c :: b) :
    y = b := by
  induction a generalizing x with
  | nil =>
    cases x with
    | nil => exact (List.cons.inj h).2
    | cons d x =>
      simp only [List.nil_append, List.cons_append, List.cons.injEq] at h
      exact absurd (by rw [← h.2]; simp) hb
  | cons d a ih =>
    cases x with
    | nil =>
      simp only [List.nil_append, List.cons_append, List.cons.injEq] at h
      exact absurd (by rw [h.1]; simp) ha
    | cons f x =>
      simp only [List.cons_append, List.cons.injEq] at h
      exact ih (fun hc => ha (List.mem_cons_of_mem _ hc)) h.2

/-- In a string of this form, each underscore is followed by the letter `t`. -/
theorem part_underscore {s part e x y : List Char} {n : Nat} {t : Option Nat} (hs : Denotes s n)
    (htp : TracePart t part) (he : '_' ∉ e) (h : "ID".toList ++ s ++ part ++ e = x ++ '_' :: y) : ∃ z, y = 't' :: z := by
  have h1 : '_' ∉ "ID".toList ++ s := by
    intro hc
    rcases List.mem_append.mp hc with hc | hc
    · exact absurd hc (by decide)
    · exact no_underscore hs hc
  rcases htp with ⟨_, rfl⟩ | ⟨k, s2, _, hs2, rfl⟩
  · exfalso
    have : '_' ∈ "ID".toList ++ s ++ [] ++ e := by rw [h]; simp
    rw [List.append_nil] at this
    rcases List.mem_append.mp this with hc | hc
    · exact h1 hc
    · exact he hc
  · refine ⟨"raceID".toList ++ s2 ++ e, ?_⟩
    refine split_unique (c := '_') h1 (b := 't' :: ("raceID".toList ++ s2 ++ e)) ?_ (h.symm.trans ?_)
    · intro hc
      rw [show 't' :: ("raceID".toList ++ s2 ++ e) = "traceID".toList ++ (s2 ++ e) by simp] at hc
      rcases List.mem_append.mp hc with hc | hc
      · exact absurd hc (by decide)
      · rcases List.mem_append.mp hc with hc | hc
        · exact no_underscore hs2 hc
        · exact he hc
    · simp

theorem tail_underscore {l x y : List Char} {n : Nat} {t : Option Nat} (h : Tail l n t) (hl : l = x ++ '_' :: y) :
    ∃ z, y = 't' :: z := by
  obtain ⟨s, part, e, hs, htp, he, rfl⟩ := h
  refine part_underscore hs htp ?_ hl
  obtain ⟨r, rfl, hr⟩ := end_cons he
  intro hc
  rcases List.mem_cons.mp hc with hc | hc
  · exact absurd hc (by decide)
  · exact hr hc

theorem tail_head {l : List Char} {n : Nat} {t : Option Nat} (h : Tail l n t) : ∃ z, l = 'I' :: z := by
  obtain ⟨s, part, e, _, _, _, rfl⟩ := h
  exact ⟨"D".toList ++ s ++ part ++ e, rfl⟩

theorem withName_iff (l : List Char) (k : Nat) (w : List Char) (n : Nat) (t : Option Nat) :
    withName l k = some (w, n, t) ↔ w = l.take k ∧ ∃ r, l.drop k = '_' :: r ∧ Tail r n t := by
  unfold withName
  constructor
  · intro h
    obtain ⟨x, hx, h⟩ := Option.map_eq_some_iff.mp h
    simp only [Prod.mk.injEq] at h
    obtain ⟨rfl, rfl, rfl⟩ := h
    obtain ⟨r, hr, hx⟩ := Option.bind_eq_some_iff.mp hx
    exact ⟨rfl, r, (literal_iff _ _ _).mp hr, (idAndEnd_iff _ _ _).mp hx⟩
  · rintro ⟨rfl, r, hr, ht⟩
    rw [hr, show ('_' :: r) = "_".toList ++ r from rfl, (literal_iff _ _ _).mpr rfl, Option.bind_some,
      (idAndEnd_iff _ _ _).mpr ht]
    rfl

/-- There is at most one place where the name of the operation can end. -/
theorem withName_unique {l w w' : List Char} {j k n n' : Nat} {t t' : Option Nat} (h : withName l j = some (w, n, t))
    (h' : withName l k = some (w', n', t')) : j = k := by
  suffices ∀ {w w' : List Char} {j k n n' : Nat} {t t' : Option Nat}, withName l j = some (w, n, t) →
      withName l k = some (w', n', t') → ¬ j < k by
    have h1 := this h h'
    have h2 := this h' h
    omega
  intro w w' j k n n' t t' h h' hlt
  obtain ⟨_, r, hr, ht⟩ := (withName_iff _ _ _ _ _).mp h
  obtain ⟨_, r', hr', ht'⟩ := (withName_iff _ _ _ _ _).mp h'
  have hd : l.drop k = r.drop (k - j - 1) := by
    rw [show k = j + (k - j) by omega, ← List.drop_drop, hr, show k - j = (k - j - 1) + 1 by omega, List.drop_succ_cons]
    congr 1; omega
  have hrr : r = r.take (k - j - 1) ++ '_' :: r' := by
    rw [← hr', hd, List.take_append_drop]
  obtain ⟨z, rfl⟩ := tail_underscore ht hrr
  obtain ⟨z', hz⟩ := tail_head ht'
  have := (List.cons.inj hz).1
  exact absurd this (by decide)

theorem withNames_inv {l : List Char} {k : Nat} {x : List Char × Nat × Option Nat} (h : withNames l k = some x) :
    ∃ j ≤ k, withName l j = some x := by
  induction k with
  | zero => exact ⟨0, le_refl _, h⟩
  | succ k ih =>
    unfold withNames at h
    cases h1 : withName l (k + 1) with
    | some y => rw [h1] at h; exact ⟨k + 1, le_refl _, h1.trans h⟩
    | none =>
      rw [h1] at h
      obtain ⟨j, hj, hx⟩ := ih h
      exact ⟨j, by omega, hx⟩

theorem withNames_ok {l : List Char} {j k : Nat} {x : List Char × Nat × Option Nat} (hj : j ≤ k)
    (h : withName l j = some x) : withNames l k = some x := by
  induction k with
  | zero => rw [Nat.le_zero.mp hj] at h; exact h
  | succ k ih =>
    unfold withNames
    cases h1 : withName l (k + 1) with
    | some y =>
      have := withName_unique h h1
      rw [this, h1] at h
      rw [← h]; rfl
    | none =>
      have : j ≤ k := by
        by_contra hc
        have : j = k + 1 := by omega
        rw [this, h1] at h; cases h
      exact ih this

theorem isWord_iff (c : Char) : isWord c = true ↔ Word c := by
  unfold isWord Word
  simp only [Char.isAlphanum, Char.isAlpha, Char.isUpper, Char.isLower, Char.isDigit, Bool.or_eq_true, Bool.and_eq_true,
    decide_eq_true_eq, ge_iff_le]
  simp only [Char.le_def]
  have e1 : ('a' : Char).val = 97 := rfl
  have e2 : ('z' : Char).val = 122 := rfl
  have e3 : ('A' : Char).val = 65 := rfl
  have e4 : ('Z' : Char).val = 90 := rfl
  have e5 : ('0' : Char).val = 48 := rfl
  have e6 : ('9' : Char).val = 57 := rfl
  rw [e1, e2, e3, e4, e5, e6]
  tauto

theorem word_prefix {w r : List Char} (h : ∀ c ∈ w, isWord c = true) :
    w.length ≤ ((w ++ r).takeWhile isWord).length := by
  rw [List.takeWhile_append_of_pos h, List.length_append]
  omega

theorem take_word {l : List Char} {k : Nat} (h : k ≤ (l.takeWhile isWord).length) : ∀ c ∈ l.take k, isWord c = true := by
  intro c hc
  have : l.take k = (l.takeWhile isWord).take k := by
    conv_lhs => rw [← List.takeWhile_append_dropWhile (p := isWord) (l := l)]
    rw [List.take_append_of_le_length h]
  rw [this] at hc
  exact List.all_eq_true.mp List.all_takeWhile c (List.mem_of_mem_take hc)

/-- The names that are matched. -/
def Matches (name : List Char) (f : TraceFile) : Prop :=
  ∃ sdev part spid tpart e, Denotes sdev f.dev ∧ OpPart f.opName part ∧ Denotes spid f.pid ∧ TracePart f.trace tpart ∧
    End e ∧ name = "noc_trace_dev".toList ++ sdev ++ ['_'] ++ part ++ "ID".toList ++ spid ++ tpart ++ e

theorem extract_iff (name : List Char) (f : TraceFile) : extract name = some f ↔ Matches name f := by
  unfold extract
  constructor
  · intro h
    obtain ⟨x, hx, h⟩ := Option.bind_eq_some_iff.mp h
    obtain ⟨dev, r⟩ := x
    obtain ⟨a, ha, hn⟩ := Option.bind_eq_some_iff.mp hx
    obtain ⟨sdev, hs, rfl⟩ := number_inv hn
    obtain ⟨l, hl, h⟩ := Option.bind_eq_some_iff.mp h
    have ha := (literal_iff _ _ _).mp ha
    have hl := (literal_iff _ _ _).mp hl
    simp only at hl
    subst hl
    cases hw : withNames l (l.takeWhile isWord).length with
    | some y =>
      obtain ⟨op, pid, t⟩ := y
      rw [hw] at h
      simp only at h
      have h := Option.some.inj h
      subst h
      obtain ⟨j, hj, hy⟩ := withNames_inv hw
      obtain ⟨rfl, r, hr, s, part, e, hs2, htp, he, rfl⟩ := (withName_iff _ _ _ _ _).mp hy
      refine ⟨sdev, l.take j ++ ['_'], s, part, e, hs, .inr ⟨fun c hc => (isWord_iff c).mp (take_word hj c hc), rfl⟩, hs2,
        htp, he, ?_⟩
      have hl' : l = l.take j ++ '_' :: ("ID".toList ++ s ++ part ++ e) := by rw [← hr, List.take_append_drop]
      rw [ha]
      conv_lhs => rw [hl']
      simp only [List.append_assoc, List.singleton_append, List.cons_append, List.nil_append]
      rfl
    | none =>
      rw [hw] at h
      simp only at h
      obtain ⟨y, hy, h⟩ := Option.map_eq_some_iff.mp h
      obtain ⟨s, part, e, hs2, htp, he, hl⟩ := (idAndEnd_iff _ _ _).mp hy
      subst h
      refine ⟨sdev, [], s, part, e, hs, .inl ⟨rfl, rfl⟩, hs2, htp, he, ?_⟩
      rw [ha, hl]
      simp
  · rintro ⟨sdev, part, spid, tpart, e, hs, hop, hs2, htp, he, rfl⟩
    have htail : Tail ("ID".toList ++ spid ++ tpart ++ e) f.pid f.trace := ⟨spid, tpart, e, hs2, htp, he, rfl⟩
    generalize hT : "ID".toList ++ spid ++ tpart ++ e = T at htail
    have hname : "noc_trace_dev".toList ++ sdev ++ ['_'] ++ part ++ "ID".toList ++ spid ++ tpart ++ e =
        "noc_trace_dev".toList ++ (sdev ++ '_' :: (part ++ T)) := by
      rw [← hT]; simp only [List.append_assoc, List.singleton_append, List.cons_append, List.nil_append]
    rw [hname, (literal_iff _ _ _).mpr rfl, Option.bind_some, number_ok hs (stop_cons (by decide)), Option.bind_some]
    simp only
    rw [show ('_' :: (part ++ T)) = "_".toList ++ (part ++ T) from rfl, (literal_iff _ _ _).mpr rfl, Option.bind_some]
    rcases hop with ⟨ho, rfl⟩ | ⟨hw, rfl⟩
    · have hnone : withNames ([] ++ T) (([] ++ T).takeWhile isWord).length = none := by
        rw [List.nil_append]
        by_contra hc
        obtain ⟨y, hy⟩ := Option.ne_none_iff_exists'.mp hc
        obtain ⟨j, _, hy⟩ := withNames_inv hy
        obtain ⟨w, n, t⟩ := y
        obtain ⟨_, r, hr, ht⟩ := (withName_iff _ _ _ _ _).mp hy
        obtain ⟨z, rfl⟩ := tail_underscore htail (x := T.take j) (y := r) (by rw [← hr, List.take_append_drop])
        obtain ⟨z', hz⟩ := tail_head ht
        exact absurd (List.cons.inj hz).1 (by decide)
      rw [hnone]
      simp only
      rw [List.nil_append, (idAndEnd_iff _ _ _).mpr htail, ← ho]
      rfl
    · have hy : withName (f.opName ++ ['_'] ++ T) f.opName.length = some (f.opName, f.pid, f.trace) := by
        rw [withName_iff]
        refine ⟨?_, T, ?_, htail⟩
        · rw [List.append_assoc, List.take_left']; rfl
        · rw [List.append_assoc, List.drop_left']; rfl; rfl
      rw [withNames_ok (by
        rw [List.append_assoc]
        exact word_prefix fun c hc => (isWord_iff c).mpr (hw c hc)) hy]

theorem extract_names {name : List Char} (hn : name.getLast? ≠ some '\n') (f : TraceFile) :
    extract name = some f ↔ Names name f := by
  rw [extract_iff]
  constructor
  · rintro ⟨sdev, part, spid, tpart, e, h1, h2, h3, h4, he, h⟩
    rcases he with rfl | rfl
    · exact ⟨sdev, part, spid, tpart, h1, h2, h3, h4, h⟩
    · exfalso
      apply hn
      rw [h, List.getLast?_append]
      rfl
  · rintro ⟨sdev, part, spid, tpart, h1, h2, h3, h4, h⟩
    exact ⟨sdev, part, spid, tpart, _, h1, h2, h3, h4, .inl rfl, h⟩

end NPE.Analyze
