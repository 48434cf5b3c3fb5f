import Verif.Model.TableText
import Verif.Proofs.Sort
import Verif.Proofs.Text
import Verif.Spec.TableText

/-
The readers of Spec/TableText.lean get back what was printed.
-/

namespace NPE.Analyze
open Spec Spec.Text Spec.Table Format NPE.Text

theorem two_digits : ∀ a : Fin 10, ∀ b : Fin 10,
    Nat.ofDigitChars 10 [Nat.digitChar a, Nat.digitChar b] 0 = 10 * a + b ∧
      (Nat.digitChar a).isDigit = true := by decide

theorem readDecimal_hundredths (t : Nat) {rest : List Char} (h : Stop rest) :
    readDecimal (hundredths t ++ rest) = some ((t : ℚ) / 100, rest) := by
  have e : hundredths t ++ rest = Nat.toDigits 10 (t / 100) ++
      (".".toList ++ ([Nat.digitChar (t % 100 / 10), Nat.digitChar (t % 10)] ++ rest)) := by
    unfold hundredths
    rw [List.append_assoc]
    rfl
  have h1 := two_digits ⟨t % 100 / 10, by omega⟩ ⟨t % 10, by omega⟩
  have h2 := two_digits ⟨t % 10, by omega⟩ ⟨t % 10, by omega⟩
  have ht : ([Nat.digitChar (t % 100 / 10), Nat.digitChar (t % 10)] ++ rest).takeWhile Char.isDigit =
      [Nat.digitChar (t % 100 / 10), Nat.digitChar (t % 10)] := by
    rw [List.takeWhile_append_of_pos, takeWhile_stop h, List.append_nil]
    intro c hc
    rcases List.mem_cons.mp hc with rfl | hc
    · exact h1.2
    · rw [List.mem_singleton.mp hc]; exact h2.2
  have hd : ([Nat.digitChar (t % 100 / 10), Nat.digitChar (t % 10)] ++ rest).dropWhile Char.isDigit = rest := by
    rw [List.dropWhile_append_of_pos, dropWhile_stop h]
    intro c hc
    rcases List.mem_cons.mp hc with rfl | hc
    · exact h1.2
    · rw [List.mem_singleton.mp hc]; exact h2.2
  have hr : readNat ([Nat.digitChar (t % 100 / 10), Nat.digitChar (t % 10)] ++ rest) =
      some (10 * (t % 100 / 10) + t % 10, rest) := by
    unfold readNat
    rw [ht, hd]
    exact congrArg (fun n => some (n, rest)) h1.1
  unfold readDecimal
  have hs : Stop (".".toList ++ ([Nat.digitChar (t % 100 / 10), Nat.digitChar (t % 10)] ++ rest)) :=
    stop_cons (c := '.') (by decide)
  rw [e, readNat_digits _ hs]
  simp only [Option.bind_eq_bind, Option.bind_some]
  rw [expect_append, Option.bind_some, hr]
  simp only [Option.bind_some, ht, List.length_cons, List.length_nil, Option.pure_def]
  congr 2
  have h3 : t = 100 * (t / 100) + (10 * (t % 100 / 10) + t % 10) := by omega
  have h4 : ((t : Nat) : ℚ) = 100 * ((t / 100 : Nat) : ℚ) + ((10 * (t % 100 / 10) + t % 10 : Nat) : ℚ) := by
    exact_mod_cast h3
  rw [h4]
  ring

theorem hundredths_head (t : Nat) : ∃ c r, hundredths t = c :: r ∧ c.isDigit = true := by
  unfold hundredths
  cases hd : Nat.toDigits 10 (t / 100) with
  | nil => exact absurd hd Nat.toDigits_ne_nil
  | cons d ds => exact ⟨d, _, rfl, digits_isDigit (n := t / 100) (by rw [hd]; exact List.mem_cons_self)⟩

/-- The figure that the text shows. -/
def shown2 (nh : ℚ → Nat) : Dbl → Dbl
  | .num x => if x < 0 then .num (-((nh (-x) : ℚ) / 100)) else .num ((nh x : ℚ) / 100)
  | x => x

theorem readFigure_figure2 (nh : ℚ → Nat) (x : Dbl) {rest : List Char} (h : Stop rest) :
    readFigure (figure2 nh x ++ rest) = some (shown2 nh x, rest) := by
  cases x with
  | nan => rfl
  | inf => rfl
  | ninf => rfl
  | num x =>
    unfold figure2 shown2
    by_cases hx : x < 0
    · simp only [hx, if_true]
      obtain ⟨c, r, hc, hd⟩ := hundredths_head (nh (-x))
      have hr := readDecimal_hundredths (nh (-x)) h
      rw [hc] at hr ⊢
      unfold readFigure
      have hi : c ≠ 'i' := fun e => absurd (e ▸ hd) (by decide)
      simp only [List.cons_append] at hr ⊢
      split
      · rename_i heq; exact absurd (List.cons.inj heq).1 (by decide)
      · rename_i heq; exact absurd (List.cons.inj heq).1 (by decide)
      · rename_i heq; exact absurd (List.cons.inj (List.cons.inj heq).2).1 hi
      · rename_i r' _ heq
        rw [← (List.cons.inj heq).2, hr]
        rfl
      · rename_i h5
        exact absurd rfl (h5 (c :: (r ++ rest)))
    · simp only [hx, if_false]
      obtain ⟨c, r, hc, hd⟩ := hundredths_head (nh x)
      have hr := readDecimal_hundredths (nh x) h
      rw [hc] at hr ⊢
      unfold readFigure
      have hn : c ≠ 'n' := fun e => absurd (e ▸ hd) (by decide)
      have hi : c ≠ 'i' := fun e => absurd (e ▸ hd) (by decide)
      have hm : c ≠ '-' := fun e => absurd (e ▸ hd) (by decide)
      simp only [List.cons_append] at hr ⊢
      split
      · rename_i heq; exact absurd (List.cons.inj heq).1 hn
      · rename_i heq; exact absurd (List.cons.inj heq).1 hi
      · rename_i heq; exact absurd (List.cons.inj heq).1 hm
      · rename_i heq; exact absurd (List.cons.inj heq).1 hm
      · rw [hr]; rfl

theorem shown2_close {nh : ℚ → Nat} (hn : Nearest2 nh) (x : Dbl) : Close2 (shown2 nh x) x := by
  cases x with
  | nan => trivial
  | inf => trivial
  | ninf => trivial
  | num x =>
    unfold shown2
    by_cases hx : x < 0
    · simp only [hx, if_true]
      have := hn (-x) (by linarith)
      rw [abs_le] at this
      show |_ - _| ≤ _
      rw [abs_le]
      constructor <;> linarith [this.1, this.2]
    · simp only [hx, if_false]
      have := hn x (by linarith)
      rw [abs_le] at this
      show |_ - _| ≤ _
      rw [abs_le]
      constructor <;> linarith [this.1, this.2]

theorem figure2_head (nh : ℚ → Nat) (x : Dbl) : ∃ c r, figure2 nh x = c :: r ∧ c ≠ ' ' := by
  have ht : ∀ t, ∃ c r, hundredths t = c :: r ∧ c ≠ ' ' := by
    intro t
    obtain ⟨c, r, hc, hd⟩ := hundredths_head t
    exact ⟨c, r, hc, fun e => absurd (e ▸ hd) (by decide)⟩
  cases x with
  | nan => exact ⟨_, _, rfl, by decide⟩
  | inf => exact ⟨_, _, rfl, by decide⟩
  | ninf => exact ⟨_, _, rfl, by decide⟩
  | num x =>
    show ∃ c r, (if x < 0 then '-' :: hundredths (nh (-x)) else hundredths (nh x)) = c :: r ∧ c ≠ ' '
    by_cases hx : x < 0
    · rw [if_pos hx]
      exact ⟨_, _, rfl, by decide⟩
    · rw [if_neg hx]
      exact ht _

theorem skip_space (cs : List Char) : skip (' ' :: cs) = skip cs := by
  unfold skip
  rw [List.dropWhile_cons_of_pos (by decide)]

theorem skip_replicate (n : Nat) (cs : List Char) : skip (List.replicate n ' ' ++ cs) = skip cs := by
  induction n with
  | zero => rfl
  | succ n ih => rw [List.replicate_succ, List.cons_append, skip_space, ih]

theorem stop_percent (rest : List Char) : Stop ('%' :: rest) := stop_cons (by decide)

theorem stop_space (rest : List Char) : Stop (' ' :: rest) := stop_cons (by decide)

theorem readPercent_column (nh : ℚ → Nat) (n : Nat) (x : Dbl) (rest : List Char) :
    readPercent (' ' :: column nh n x ++ rest) = some (shown2 nh x, rest) := by
  have e : column nh n x ++ rest = right n (figure2 nh x) ++ ("%".toList ++ rest) := by
    unfold column
    rw [List.append_assoc]
    rfl
  unfold readPercent
  rw [List.cons_append, skip_space, e, skip_right _ _ (figure2_head nh x), readFigure_figure2 nh x (rest := "%".toList ++ rest) (stop_percent rest)]
  simp only [Option.bind_eq_bind, Option.bind_some]
  rw [expect_append]
  rfl

/-- Where a number ends in a figure. -/
theorem readNat_figure2 (nh : ℚ → Nat) (x : Dbl) (rest : List Char) :
    readNat (figure2 nh x ++ rest) = none ∨
      ∃ n r, readNat (figure2 nh x ++ rest) = some (n, r) ∧ r.head? ≠ some ' ' := by
  have hn : ∀ (cs : List Char) (c : Char), cs.head? = some c → c.isDigit = false → readNat cs = none := by
    intro cs c hc hd
    obtain ⟨r, rfl⟩ : ∃ r, cs = c :: r := by
      cases cs with
      | nil => cases hc
      | cons a r => exact ⟨r, by rw [Option.some.inj hc]⟩
    unfold readNat
    rw [List.takeWhile_cons_of_neg (by rw [hd]; decide)]
  cases x with
  | nan => exact .inl (hn _ 'n' rfl (by decide))
  | inf => exact .inl (hn _ 'i' rfl (by decide))
  | ninf => exact .inl (hn _ '-' rfl (by decide))
  | num x =>
    unfold figure2
    by_cases hx : x < 0
    · simp only [hx, if_true]
      exact .inl (hn _ '-' rfl (by decide))
    · simp only [hx, if_false]
      refine .inr ⟨nh x / 100, ['.', Nat.digitChar (nh x % 100 / 10), Nat.digitChar (nh x % 10)] ++ rest, ?_, ?_⟩
      · unfold hundredths
        rw [List.append_assoc]
        exact readNat_digits _ (stop_cons (by decide))
      · show some '.' ≠ some ' '
        decide

theorem readTrace_some (t : Nat) (rest : List Char) :
    readTrace (' ' :: right 15 (traceText (some t)) ++ ' ' :: rest) = (some t, ' ' :: rest) := by
  unfold readTrace traceText
  rw [List.cons_append, skip_space, skip_right _ _ (digits_head t), readNat_digits _ (stop_space rest)]
  simp

theorem readTrace_none (nh : ℚ → Nat) (n : Nat) (x : Dbl) (rest : List Char) :
    readTrace (' ' :: right 15 (traceText none) ++ (' ' :: column nh n x ++ rest)) =
      (none, ' ' :: right 15 (traceText none) ++ (' ' :: column nh n x ++ rest)) := by
  have hs : skip (' ' :: right 15 (traceText none) ++ (' ' :: column nh n x ++ rest)) =
      figure2 nh x ++ ('%' :: rest) := by
    have : right 15 (traceText none) = List.replicate 15 ' ' := by decide
    have e : column nh n x ++ rest = right n (figure2 nh x) ++ ('%' :: rest) := by
      unfold column
      rw [List.append_assoc]
      rfl
    rw [List.cons_append, skip_space, this, skip_replicate, List.cons_append, skip_space, e,
      skip_right _ _ (figure2_head nh x)]
  unfold readTrace
  rw [hs]
  rcases readNat_figure2 nh x ('%' :: rest) with h | ⟨n, r, h, hr⟩
  · rw [h]
  · rw [h]
    simp only [hr, if_false]

/-- Spaces before a column do not matter. -/
theorem readPercent_skip {a b : List Char} (h : skip a = skip b) : readPercent a = readPercent b := by
  unfold readPercent
  rw [h]

/-- What the row of a datapoint says. -/
def rowView (nh : ℚ → Nat) (d : Datapoint) (share : Dbl) (eth : List (Coord × Dbl)) : Row where
  name := d.opName
  op := d.uid.op
  trace := d.uid.trace
  noc := shown2 nh d.result.avgLinkUtil
  mcast := shown2 nh d.result.avgMcastUtil
  dram := shown2 nh d.result.dramUtil
  impact := shown2 nh (.num (impact d.result))
  share := shown2 nh share
  eth := eth

theorem eth_head (nt : ℚ → Nat) (l : List (Coord × Dbl)) : ∃ c r, ethPerCore nt l = c :: r ∧ c ≠ ' ' := by
  unfold ethPerCore
  split
  · exact ⟨'-', [], rfl, by decide⟩
  · rename_i hl
    rw [cores_joined]
    have hp := sortBy_perm (fun a b => !before b a) l
    cases hs : sortBy (fun a b => !before b a) l with
    | nil =>
      rw [hs] at hp
      exact absurd (List.nil_perm.mp hp) hl
    | cons e es =>
      cases es with
      | nil => exact ⟨'(', _, rfl, by decide⟩
      | cons e' es => exact ⟨'(', _, rfl, by decide⟩

theorem readRow_rowText (nh nt : ℚ → Nat) (d : Datapoint) (share : Dbl) (hname : ' ' ∉ d.opName)
    {eth : List (Coord × Dbl)} (he : readEth (ethPerCore nt d.result.ethUtil) = some eth) :
    readRow (rowText nh nt d share) = some (rowView nh d share eth) := by
  obtain ⟨c, r, hc, hsp⟩ := eth_head nt d.result.ethUtil
  have hskip : skip (' ' :: ' ' :: ethPerCore nt d.result.ethUtil) = ethPerCore nt d.result.ethUtil := by
    rw [skip_space, skip_space, hc]
    unfold skip
    rw [List.dropWhile_cons_of_neg (by simpa using hsp)]
  have h5 := readPercent_column nh 18 share (' ' :: ' ' :: ethPerCore nt d.result.ethUtil)
  have h4 := readPercent_column nh 13 (.num (impact d.result))
    (' ' :: column nh 18 share ++ (' ' :: ' ' :: ethPerCore nt d.result.ethUtil))
  have h3 := readPercent_column nh 13 d.result.dramUtil (' ' :: column nh 13 (.num (impact d.result)) ++
    (' ' :: column nh 18 share ++ (' ' :: ' ' :: ethPerCore nt d.result.ethUtil)))
  have h2 := readPercent_column nh 17 d.result.avgMcastUtil (' ' :: column nh 13 d.result.dramUtil ++
    (' ' :: column nh 13 (.num (impact d.result)) ++
    (' ' :: column nh 18 share ++ (' ' :: ' ' :: ethPerCore nt d.result.ethUtil))))
  have h1 := readPercent_column nh 13 d.result.avgLinkUtil (' ' :: column nh 17 d.result.avgMcastUtil ++
    (' ' :: column nh 13 d.result.dramUtil ++ (' ' :: column nh 13 (.num (impact d.result)) ++
    (' ' :: column nh 18 share ++ (' ' :: ' ' :: ethPerCore nt d.result.ethUtil)))))
  generalize hrest : ' ' :: column nh 17 d.result.avgMcastUtil ++
    (' ' :: column nh 13 d.result.dramUtil ++ (' ' :: column nh 13 (.num (impact d.result)) ++
    (' ' :: column nh 18 share ++ (' ' :: ' ' :: ethPerCore nt d.result.ethUtil)))) = rest at h1 h2
  have e : rowText nh nt d share = d.opName ++ (List.replicate (42 - d.opName.length) ' ' ++ (' ' ::
      (right 5 (Nat.toDigits 10 d.uid.op) ++ (' ' :: right 15 (traceText d.uid.trace) ++
        (' ' :: column nh 13 d.result.avgLinkUtil ++ rest))))) := by
    rw [← hrest]
    unfold rowText left
    simp only [List.append_assoc, List.cons_append]
  have hne : ∀ c ∈ d.opName, (decide (c ≠ ' ')) = true := by
    intro c hc
    rw [decide_eq_true_eq]
    rintro rfl
    exact hname hc
  have hhead : ∀ (k : Nat) (x : List Char), ∃ y, List.replicate k ' ' ++ ' ' :: x = ' ' :: y := by
    intro k x
    cases k with
    | zero => exact ⟨_, rfl⟩
    | succ k => exact ⟨_, by rw [List.replicate_succ, List.cons_append]⟩
  have ht : (rowText nh nt d share).takeWhile (· ≠ ' ') = d.opName := by
    rw [e, List.takeWhile_append_of_pos hne]
    obtain ⟨y, hy⟩ := hhead (42 - d.opName.length) (right 5 (Nat.toDigits 10 d.uid.op) ++
      (' ' :: right 15 (traceText d.uid.trace) ++ (' ' :: column nh 13 d.result.avgLinkUtil ++ rest)))
    rw [hy, List.takeWhile_cons_of_neg (by decide), List.append_nil]
  have hd : skip ((rowText nh nt d share).dropWhile (· ≠ ' ')) = Nat.toDigits 10 d.uid.op ++
      (' ' :: right 15 (traceText d.uid.trace) ++ (' ' :: column nh 13 d.result.avgLinkUtil ++ rest)) := by
    rw [e, List.dropWhile_append_of_pos hne]
    have : ∀ (k : Nat) (x : List Char), (List.replicate k ' ' ++ ' ' :: x).dropWhile (· ≠ ' ') =
        List.replicate k ' ' ++ ' ' :: x := by
      intro k x
      obtain ⟨y, hy⟩ := hhead k x
      rw [hy, List.dropWhile_cons_of_neg (by decide)]
    rw [this, skip_replicate, skip_space, skip_right _ _ (digits_head _)]
  have htr : ∃ cs, readTrace (' ' :: right 15 (traceText d.uid.trace) ++
      (' ' :: column nh 13 d.result.avgLinkUtil ++ rest)) = (d.uid.trace, cs) ∧
      skip cs = skip (' ' :: column nh 13 d.result.avgLinkUtil ++ rest) := by
    cases htr : d.uid.trace with
    | none =>
      refine ⟨_, readTrace_none nh 13 d.result.avgLinkUtil rest, ?_⟩
      have : right 15 (traceText none) = List.replicate 15 ' ' := by decide
      rw [List.cons_append, skip_space, this, skip_replicate]
    | some t => exact ⟨_, readTrace_some t _, rfl⟩
  obtain ⟨cs, htr, hcs⟩ := htr
  unfold readRow
  simp only [ht, hd]
  rw [readNat_digits _ (show Stop (' ' :: right 15 (traceText d.uid.trace) ++ _) from stop_space _)]
  simp only [Option.bind_eq_bind, Option.bind_some]
  rw [htr]
  simp only
  rw [readPercent_skip hcs, h1]
  simp only [Option.bind_some]
  rw [← hrest, readPercent_column]
  simp only [Option.bind_some]
  rw [readPercent_column]
  simp only [Option.bind_some]
  rw [readPercent_column]
  simp only [Option.bind_some]
  rw [h5]
  simp only [Option.bind_some]
  rw [hskip, he]
  rfl

theorem readOmitted_text (n : Int) : readOmitted (omittedText n) = some n := by
  unfold readOmitted omittedText
  rw [List.append_assoc, expect_append]
  simp only [Option.bind_eq_bind, Option.bind_some]
  rw [readInt_int n (rest := " operations omitted; use -m $NUM_ROWS to display more".toList) (stop_cons (by decide))]
  rfl

/-- Names of operations consist of letters, digits and underscores. -/
def AllWord (l : List Char) : Prop := ∀ c ∈ l, isWord c = true

theorem AllWord.no_space {l : List Char} (h : AllWord l) : ' ' ∉ l := fun hs => absurd (h _ hs) (by decide)

/-- The beginning of a row. -/
theorem rowText_head (nh nt : ℚ → Nat) {d : Datapoint} (share : Dbl) (h : AllWord d.opName) :
    ∃ c r, rowText nh nt d share = c :: r ∧ c ≠ '.' := by
  unfold rowText left
  cases hd : d.opName with
  | nil => exact ⟨' ', _, rfl, by decide⟩
  | cons c cs =>
    refine ⟨c, _, rfl, ?_⟩
    rintro rfl
    exact absurd (h '.' (by rw [hd]; exact List.mem_cons_self)) (by decide)

theorem row_isRow (nh nt : ℚ → Nat) {d : Datapoint} (share : Dbl) (h : AllWord d.opName) :
    (!isRule (rowText nh nt d share) && (readOmitted (rowText nh nt d share)).isNone) = true := by
  have h1 : isRule (rowText nh nt d share) = false := by
    unfold isRule
    rw [Bool.and_eq_false_iff]
    right
    rw [List.all_eq_false]
    refine ⟨' ', ?_, by decide⟩
    unfold rowText
    simp only [List.append_assoc, List.cons_append]
    exact List.mem_append_right _ List.mem_cons_self
  have h2 : readOmitted (rowText nh nt d share) = none := by
    obtain ⟨c, r, hr, hc⟩ := rowText_head nh nt share h
    unfold readOmitted
    have : expect "... ".toList (rowText nh nt d share) = none := by
      unfold expect
      rw [if_neg]
      rw [hr]
      intro he
      exact hc (List.cons.inj he).1
    rw [this]
    rfl
  rw [h1, h2]
  rfl

theorem isRule_separator : isRule separator = true := by decide +kernel

/-- What the loop prints. -/
theorem rowTexts_ok (nh nt : ℚ → Nat) (ds : Datapoints) (hc : cycles ds ≠ 0) (maxDisplay : Int) (all : Nat) :
    ∀ (l : List Datapoint) (i : Nat), rowTexts nh nt ds maxDisplay all i l =
      .ok ((l.take (maxDisplay - i).toNat).map (fun d => rowText nh nt d (.num (100 * ((d.result.goldenCycles : ℚ) / cycles ds)))) ++
        if (maxDisplay - i).toNat < l.length then [omittedText (all - maxDisplay)] else [])
  | [], i => by
    rw [List.take_nil]
    rfl
  | d :: l, i => by
    rw [rowTexts]
    by_cases h : maxDisplay ≤ i
    · have : (maxDisplay - i).toNat = 0 := by omega
      rw [if_pos h, this, if_pos (by rw [List.length_cons]; omega)]
      rfl
    · have e : (maxDisplay - i).toNat = (maxDisplay - (i + 1 : Nat)).toNat + 1 := by omega
      have hr : tableRow ds d = .ok (d, .num (100 * ((d.result.goldenCycles : ℚ) / cycles ds))) := by
        unfold tableRow over
        rw [if_neg hc]
        show Out.ok (d, Dbl.scale 100 (.num _)) = _
        rfl
      rw [if_neg h, hr, Out.bind_ok, rowTexts_ok nh nt ds hc maxDisplay all l (i + 1), Out.bind_ok, e, List.take_succ_cons,
        List.map_cons, List.cons_append, List.length_cons]
      congr 3
      simp only [Nat.add_lt_add_iff_right]

theorem readMean_text (nt : ℚ → Nat) (w : String) (k : Nat) (x : Dbl) (label : String)
    (hl : label.toList = w.toList ++ (List.replicate k ' ' ++ ": ".toList)) :
    readMean w (meanText nt label x) = some (shown nt x) := by
  unfold readMean meanText
  have hc : skip (List.replicate k ' ' ++ (": ".toList ++ (figure nt x ++ ['%', ' ']))) =
      ":".toList ++ (" ".toList ++ (figure nt x ++ ("%".toList ++ " ".toList))) := by
    rw [skip_replicate]
    show skip (':' :: _) = _
    unfold skip
    rw [List.dropWhile_cons_of_neg (by decide)]
    rfl
  rw [hl]
  simp only [List.append_assoc]
  rw [expect_append]
  simp only [Option.bind_eq_bind, Option.bind_some]
  rw [hc, expect_append, Option.bind_some]
  have hp : readPercent (" ".toList ++ (figure nt x ++ ("%".toList ++ " ".toList))) = some (shown nt x, " ".toList) := by
    unfold readPercent
    have hs : skip (" ".toList ++ (figure nt x ++ ("%".toList ++ " ".toList))) = figure nt x ++ ("%".toList ++ " ".toList) := by
      obtain ⟨c, r, hcr, hne⟩ := figure_head nt x
      show skip (' ' :: (figure nt x ++ _)) = _
      rw [skip_space, hcr]
      unfold skip
      rw [List.cons_append, List.dropWhile_cons_of_neg (by simpa using hne)]
    rw [hs, readFigure_figure nt x (rest := "%".toList ++ " ".toList) (stop_percent _)]
    simp only [Option.bind_eq_bind, Option.bind_some]
    rw [expect_append]
    rfl
  rw [hp]
  rfl

theorem maybeOmitted_text (n : Int) (ls : List (List Char)) : maybeOmitted (omittedText n :: ls) = (n, ls) := by
  rw [maybeOmitted, readOmitted_text]

theorem maybeOmitted_absent (ls : List (List Char)) : maybeOmitted (separator :: ls) = (0, separator :: ls) := by
  have : readOmitted separator = none := by decide +kernel
  rw [maybeOmitted, this]

theorem readMeans_four {a b c d : List Char} {w x y z : Dbl} (ha : readMean "average link util" a = some w)
    (hb : readMean "cycle-weighted overall link util" b = some x)
    (hc : readMean "cycle-weighted dram bw util" c = some y) (hd : readMean "cycle-weighted eth bw util" d = some z) :
    readMeans [a, b, c, d] = some (w, x, y, z) := by
  rw [readMeans, ha, hb, hc, hd]
  rfl

/-- Reading rows one by one. -/
theorem readRows_map {α : Type} (f : α → List Char) (g : α → Row) :
    ∀ l : List α, (∀ a ∈ l, readRow (f a) = some (g a)) → readRows (l.map f) = some (l.map g)
  | [], _ => rfl
  | a :: l, h => by
    rw [List.map_cons, readRows, h a List.mem_cons_self]
    simp only [Option.bind_eq_bind, Option.bind_some]
    rw [readRows_map f g l fun b hb => h b (List.mem_cons_of_mem _ hb)]
    rfl

/-- The names of operations that come from file names. -/
theorem withNames_word {l : List Char} : ∀ {k : Nat} {r}, k ≤ (l.takeWhile isWord).length → withNames l k = some r →
    AllWord r.1 := by
  have h1 : ∀ {k : Nat} {r}, k ≤ (l.takeWhile isWord).length → withName l k = some r → AllWord r.1 := by
    intro k r hk h c hc
    unfold withName at h
    obtain ⟨e, _, rfl⟩ := Option.map_eq_some_iff.mp h
    have : l.take k = (l.takeWhile isWord).take k := by
      conv_lhs => rw [← List.takeWhile_append_dropWhile (p := isWord) (l := l), List.take_append_of_le_length hk]
    have hc : c ∈ l.take k := hc
    rw [this] at hc
    exact List.all_eq_true.mp List.all_takeWhile c (List.mem_of_mem_take hc)
  intro k
  induction k with
  | zero => intro r hk h; exact h1 hk h
  | succ k ih =>
    intro r hk h
    unfold withNames at h
    cases hw : withName l (k + 1) with
    | none =>
      rw [hw] at h
      exact ih (by omega) h
    | some q =>
      rw [hw] at h
      rw [← Option.some.inj h]
      exact h1 hk hw

theorem extract_word {name : List Char} {f : TraceFile} (h : extract name = some f) : AllWord f.opName := by
  unfold extract at h
  obtain ⟨e, _, h⟩ := Option.bind_eq_some_iff.mp h
  obtain ⟨l, _, h⟩ := Option.bind_eq_some_iff.mp h
  split at h
  · rename_i op pid t hw
    rw [← Option.some.inj h]
    exact withNames_word (r := (op, pid, t)) le_rfl hw
  · obtain ⟨r, _, rfl⟩ := Option.map_eq_some_iff.mp h
    show AllWord "UnknownOP".toList
    unfold AllWord
    decide

end NPE.Analyze
