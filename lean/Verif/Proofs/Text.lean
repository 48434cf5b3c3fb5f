import Mathlib.Algebra.Order.Field.Rat
import Mathlib.Tactic.Linarith
import Mathlib.Tactic.Ring
import Verif.Proofs.Format
import Verif.Spec.Text

/-
The readers of Spec/Text.lean get back what was printed.
-/

namespace NPE.Text
open Spec Spec.Text Format

/-- The figure that the text shows. -/
def shown (nt : ℚ → Nat) : Dbl → Dbl
  | .num x => if x < 0 then .num (-((nt (-x) : ℚ) / 10)) else .num ((nt x : ℚ) / 10)
  | x => x

theorem readDecimal_tenths (t : Nat) {rest : List Char} (h : Stop rest) :
    readDecimal (tenths t ++ rest) = some ((t : ℚ) / 10, rest) := by
  have e : tenths t ++ rest = Nat.toDigits 10 (t / 10) ++ (".".toList ++ (Nat.toDigits 10 (t % 10) ++ rest)) := by
    unfold tenths
    rw [List.append_assoc]
    rfl
  have hd : Nat.toDigits 10 (t % 10) = [Nat.digitChar (t % 10)] := Nat.toDigits_of_lt_base (Nat.mod_lt _ (by omega))
  have ht : ((Nat.toDigits 10 (t % 10) ++ rest).takeWhile Char.isDigit).length = 1 := by
    rw [List.takeWhile_append_of_pos (fun c hc => digits_isDigit hc), takeWhile_stop h, List.append_nil, hd]
    rfl
  unfold readDecimal
  have hs : Stop (".".toList ++ (Nat.toDigits 10 (t % 10) ++ rest)) := stop_cons (c := '.') (by decide)
  rw [e, readNat_digits _ hs]
  simp only [Option.bind_eq_bind, Option.bind_some]
  rw [expect_append, Option.bind_some, readNat_digits _ h]
  simp only [Option.bind_some, ht, pow_one, Option.pure_def]
  congr 2
  have := Nat.div_add_mod t 10
  have h2 : ((t : Nat) : ℚ) = 10 * ((t / 10 : Nat) : ℚ) + ((t % 10 : Nat) : ℚ) := by exact_mod_cast this.symm
  rw [h2]
  ring

theorem tenths_head (t : Nat) : ∃ c r, tenths t = c :: r ∧ c.isDigit = true := by
  unfold tenths
  cases hd : Nat.toDigits 10 (t / 10) with
  | nil => exact absurd hd Nat.toDigits_ne_nil
  | cons d ds => exact ⟨d, _, rfl, digits_isDigit (n := t / 10) (by rw [hd]; exact List.mem_cons_self)⟩

theorem readFigure_figure (nt : ℚ → Nat) (x : Dbl) {rest : List Char} (h : Stop rest) :
    readFigure (figure nt x ++ rest) = some (shown nt x, rest) := by
  cases x with
  | nan => rfl
  | inf => rfl
  | ninf => rfl
  | num x =>
    unfold figure shown
    by_cases hx : x < 0
    · simp only [hx, if_true]
      obtain ⟨c, r, hc, hd⟩ := tenths_head (nt (-x))
      have hr := readDecimal_tenths (nt (-x)) h
      rw [hc] at hr ⊢
      unfold readFigure
      have hi : c ≠ 'i' := fun e => absurd (e ▸ hd) (by decide)
      simp only [List.cons_append] at hr ⊢
      split
      · rename_i heq; exact absurd (List.cons.inj heq).1 (by decide)
      · rename_i heq; exact absurd (List.cons.inj heq).1 (by decide)
      · rename_i heq; exact absurd (List.cons.inj (List.cons.inj heq).2).1 hi
      · rename_i r' _ heq
        rw [← (List.cons.inj heq).2, hr]
        rfl
      · rename_i h5
        exact absurd rfl (h5 (c :: (r ++ rest)))
    · simp only [hx, if_false]
      obtain ⟨c, r, hc, hd⟩ := tenths_head (nt x)
      have hr := readDecimal_tenths (nt x) h
      rw [hc] at hr ⊢
      unfold readFigure
      have hn : c ≠ 'n' := fun e => absurd (e ▸ hd) (by decide)
      have hi : c ≠ 'i' := fun e => absurd (e ▸ hd) (by decide)
      have hm : c ≠ '-' := fun e => absurd (e ▸ hd) (by decide)
      simp only [List.cons_append] at hr ⊢
      split
      · rename_i heq; exact absurd (List.cons.inj heq).1 hn
      · rename_i heq; exact absurd (List.cons.inj heq).1 hi
      · rename_i heq; exact absurd (List.cons.inj heq).1 hm
      · rename_i heq; exact absurd (List.cons.inj heq).1 hm
      · rw [hr]; rfl

theorem shown_close {nt : ℚ → Nat} (hn : Nearest nt) (x : Dbl) : Close (shown nt x) x := by
  cases x with
  | nan => trivial
  | inf => trivial
  | ninf => trivial
  | num x =>
    unfold shown
    by_cases hx : x < 0
    · simp only [hx, if_true]
      have := hn (-x) (by linarith)
      rw [abs_le] at this
      show |_ - _| ≤ _
      rw [abs_le]
      constructor <;> linarith [this.1, this.2]
    · simp only [hx, if_false]
      have := hn x (by linarith)
      rw [abs_le] at this
      show |_ - _| ≤ _
      rw [abs_le]
      constructor <;> linarith [this.1, this.2]

theorem skip_right (n : Nat) {cs : List Char} (rest : List Char) (h : ∃ c r, cs = c :: r ∧ c ≠ ' ') :
    skip (right n cs ++ rest) = cs ++ rest := by
  obtain ⟨c, r, rfl, hc⟩ := h
  unfold skip right
  rw [List.append_assoc, List.dropWhile_append_of_pos]
  · rw [List.cons_append, List.dropWhile_cons, if_neg (by simpa using hc)]
  · intro a ha
    simpa using List.eq_of_mem_replicate ha

theorem figure_head (nt : ℚ → Nat) (x : Dbl) : ∃ c r, figure nt x = c :: r ∧ c ≠ ' ' := by
  have ht : ∀ t, ∃ c r, tenths t = c :: r ∧ c ≠ ' ' := by
    intro t
    obtain ⟨c, r, hc, hd⟩ := tenths_head t
    exact ⟨c, r, hc, fun e => absurd (e ▸ hd) (by decide)⟩
  cases x with
  | nan => exact ⟨_, _, rfl, by decide⟩
  | inf => exact ⟨_, _, rfl, by decide⟩
  | ninf => exact ⟨_, _, rfl, by decide⟩
  | num x =>
    show ∃ c r, (if x < 0 then '-' :: tenths (nt (-x)) else tenths (nt x)) = c :: r ∧ c ≠ ' '
    by_cases hx : x < 0
    · rw [if_pos hx]
      exact ⟨_, _, rfl, by decide⟩
    · rw [if_neg hx]
      exact ht _

theorem digits_head (n : Nat) : ∃ c r, Nat.toDigits 10 n = c :: r ∧ c ≠ ' ' := by
  cases hd : Nat.toDigits 10 n with
  | nil => exact absurd hd Nat.toDigits_ne_nil
  | cons d ds =>
    exact ⟨d, ds, rfl, fun e => absurd (digits_isDigit (n := n) (c := d) (by rw [hd]; exact List.mem_cons_self))
      (by rw [e]; decide)⟩

theorem percentLine_percent (nt : ℚ → Nat) (label after : String) (x : Dbl) (rest : List Char) :
    percentLine label after (percent nt label x after ++ rest) = some (shown nt x, rest) := by
  have e : percent nt label x after ++ rest = label.toList ++ (right 5 (figure nt x) ++
      (("%".toList ++ after.toList ++ "\n".toList) ++ rest)) := by
    unfold percent
    show _ = label.toList ++ (right 5 (figure nt x) ++ (('%' :: after.toList ++ ['\n']) ++ rest))
    simp only [List.append_assoc, List.cons_append]
  have hs : Stop (("%".toList ++ after.toList ++ "\n".toList) ++ rest) := stop_cons (c := '%') (by decide)
  unfold percentLine
  rw [e, expect_append]
  simp only [Option.bind_eq_bind, Option.bind_some]
  rw [skip_right _ _ (figure_head nt x), readFigure_figure nt x hs]
  simp only [Option.bind_some]
  rw [expect_append]
  rfl

theorem countLine_count (label after : String) (n : Nat) (rest : List Char) (h : Stop (after.toList ++ "\n".toList)) :
    countLine label after (count label n after ++ rest) = some (n, rest) := by
  have e : count label n after ++ rest = label.toList ++ (right 5 (Nat.toDigits 10 n) ++
      ((after.toList ++ "\n".toList) ++ rest)) := by
    unfold count
    simp only [List.append_assoc]
    rfl
  have hs : Stop ((after.toList ++ "\n".toList) ++ rest) := by
    intro c hc
    apply h c
    cases ha : after.toList ++ "\n".toList with
    | nil => exact absurd (List.append_eq_nil_iff.mp ha).2 (by decide)
    | cons a l => rw [ha] at hc; exact hc
  unfold countLine
  rw [e, expect_append]
  simp only [Option.bind_eq_bind, Option.bind_some]
  rw [skip_right _ _ (digits_head n), readNat_digits n hs]
  simp only [Option.bind_some]
  rw [expect_append]
  rfl

theorem maybeLine_percent (nt : ℚ → Nat) (label : String) (x : Dbl) (rest : List Char) :
    maybeLine label (percent nt label x "" ++ rest) = (some (shown nt x), rest) := by
  unfold maybeLine
  rw [percentLine_percent]

theorem maybeLine_absent (rest : List Char) :
    maybeLine "   cycle pred error: " ("\n".toList ++ rest) = (none, "\n".toList ++ rest) := by
  rfl

/-- What the text of statistics shows. -/
def view (nt : ℚ → Nat) (wall : Nat) (verbose : Bool) (r : DevReport) : View where
  impact := shown nt (.num r.stats.congestionImpact)
  estimated := r.stats.estimated
  golden := r.stats.golden
  predError := if 0 < r.stats.golden then some (shown nt r.summary.cyclePredictionError) else none
  dram := shown nt r.summary.dramUtil
  dramSim := shown nt r.summary.dramUtilSim
  eth := shown nt r.summary.aggregateEthUtil
  avgUtil := shown nt r.summary.avgLinkUtil
  avgMcast := shown nt r.summary.avgMcastUtil
  maxUtil := shown nt (.num r.summary.maxLinkUtil)
  avgDemand := shown nt r.summary.avgLinkDemand
  maxDemand := shown nt (.num r.summary.maxLinkDemand)
  avgNiu := shown nt r.summary.avgNiuDemand
  maxNiu := shown nt (.num r.summary.maxNiuDemand)
  wall := if verbose then some wall else none

theorem readWall_text (wall : Nat) (verbose : Bool) :
    readWall (if verbose then "\n".toList ++ count "   wallclock time: " wall " us" else []) =
      some (if verbose then some wall else none) := by
  cases verbose with
  | false => rfl
  | true =>
    simp only [if_true]
    unfold readWall
    rw [if_neg (fun h => absurd (List.append_eq_nil_iff.mp h).1 (by decide)), expect_append]
    have := countLine_count "   wallclock time: " " us" wall [] (stop_cons (c := ' ') (by decide))
    rw [List.append_nil] at this
    simp only [Option.bind_eq_bind, Option.bind_some, this, if_true]

theorem step {α β : Type} {x : Option α} {f : α → Option β} {a : α} {r : Option β} (h : x = some a) (k : f a = r) :
    (x >>= f) = r := by
  rw [h]
  exact k

theorem readStats_stats (nt : ℚ → Nat) (wall : Nat) (verbose : Bool) (r : DevReport) :
    readStats (stats nt wall verbose r) = some (view nt wall verbose r) := by
  have hs : Stop (("" : String).toList ++ "\n".toList) := stop_cons (c := '\n') (by decide)
  have hm : ∀ rest, maybeLine "   cycle pred error: " ((if 0 < r.stats.golden then
      percent nt "   cycle pred error: " r.summary.cyclePredictionError "" else []) ++ ("\n".toList ++ rest)) =
      ((view nt wall verbose r).predError, "\n".toList ++ rest) := by
    intro rest
    unfold view
    by_cases hg : 0 < r.stats.golden
    · rw [if_pos hg, maybeLine_percent]
      simp only [if_pos hg]
    · rw [if_neg hg, List.nil_append, maybeLine_absent]
      simp only [if_neg hg]
  unfold stats readStats
  repeat rw [List.append_assoc]
  refine step (percentLine_percent ..) ?_
  refine step (countLine_count _ _ _ _ hs) ?_
  refine step (countLine_count _ _ _ _ hs) ?_
  dsimp only
  rw [hm]
  refine step (expect_append ..) ?_
  refine step (percentLine_percent ..) ?_
  refine step (percentLine_percent ..) ?_
  refine step (percentLine_percent ..) ?_
  refine step (expect_append ..) ?_
  refine step (percentLine_percent ..) ?_
  refine step (percentLine_percent ..) ?_
  refine step (percentLine_percent ..) ?_
  refine step (expect_append ..) ?_
  refine step (percentLine_percent ..) ?_
  refine step (percentLine_percent ..) ?_
  refine step (expect_append ..) ?_
  refine step (percentLine_percent ..) ?_
  refine step (percentLine_percent ..) ?_
  refine step (readWall_text wall verbose) ?_
  rfl

/-! ### Cores -/

theorem readCore_core (nt : ℚ → Nat) (e : Coord × Dbl) (rest : List Char) :
    readCore (core nt e ++ rest) = some ((e.1, shown nt e.2), rest) := by
  have he : core nt e ++ rest = "(".toList ++ (int e.1.dev ++ (",".toList ++ (int e.1.row ++ (",".toList ++
      (int e.1.col ++ ("):".toList ++ (figure nt e.2 ++ ("%".toList ++ rest)))))))) := by
    unfold core
    show _ = '(' :: (int e.1.dev ++ ',' :: (int e.1.row ++ ',' :: (int e.1.col ++ ')' :: ':' ::
      (figure nt e.2 ++ '%' :: rest))))
    simp
  have h1 : ∀ l, Stop (",".toList ++ l) := fun l => stop_cons (c := ',') (by decide)
  have h2 : ∀ l, Stop ("):".toList ++ l) := fun l => stop_cons (c := ')') (by decide)
  have h3 : ∀ l, Stop ("%".toList ++ l) := fun l => stop_cons (c := '%') (by decide)
  unfold readCore
  rw [he, expect_append]
  simp only [Option.bind_eq_bind, Option.bind_some, expect_append, readInt_int _ (h1 _), readInt_int _ (h2 _),
    readFigure_figure _ _ (h3 _), Option.pure_def]

/-- Separated by spaces. -/
def joined (nt : ℚ → Nat) : List (Coord × Dbl) → List Char
  | [] => []
  | [e] => core nt e
  | e :: f :: l => core nt e ++ (" ".toList ++ joined nt (f :: l))

theorem core_ne (nt : ℚ → Nat) (e : Coord × Dbl) : core nt e ≠ [] := nofun

theorem cores_fold (nt : ℚ → Nat) : ∀ (l : List (Coord × Dbl)) (cs : List Char), cs ≠ [] →
    l.foldl (fun cs e => (if cs ≠ [] then cs ++ [' '] else cs) ++ core nt e) cs =
      if l = [] then cs else cs ++ (" ".toList ++ joined nt l)
  | [], cs, _ => rfl
  | [e], cs, h => by
    simp [h, joined]
  | e :: f :: l, cs, h => by
    rw [List.foldl_cons, if_pos h, cores_fold nt (f :: l) _ (by simp)]
    rw [if_neg (by simp), if_neg (by simp)]
    show cs ++ [' '] ++ core nt e ++ (" ".toList ++ joined nt (f :: l)) =
      cs ++ (" ".toList ++ (core nt e ++ (" ".toList ++ joined nt (f :: l))))
    simp

theorem cores_joined (nt : ℚ → Nat) (l : List (Coord × Dbl)) : cores nt l = joined nt l := by
  unfold cores
  match l with
  | [] => rfl
  | [e] => simp [joined]
  | e :: f :: l =>
    rw [List.foldl_cons, if_neg (by simp), List.nil_append, cores_fold nt (f :: l) _ (core_ne nt e), if_neg (by simp)]
    rfl

theorem joined_length (nt : ℚ → Nat) : ∀ l, l.length ≤ (joined nt l).length
  | [] => Nat.le_refl _
  | [e] => List.length_pos_of_ne_nil (core_ne nt e)
  | e :: f :: l => by
    have h1 := joined_length nt (f :: l)
    have h2 := List.length_pos_of_ne_nil (core_ne nt e)
    show (f :: l).length + 1 ≤ (core nt e ++ (" ".toList ++ joined nt (f :: l))).length
    rw [List.length_append, List.length_append]
    omega

theorem readCores_joined (nt : ℚ → Nat) : ∀ (l : List (Coord × Dbl)) (fuel : Nat), l ≠ [] → l.length ≤ fuel →
    readCores fuel (joined nt l) = some (l.map fun e => (e.1, shown nt e.2))
  | [], _, h, _ => absurd rfl h
  | _, 0, h, hf => absurd (List.length_pos_of_ne_nil h) (by omega)
  | [e], fuel + 1, _, _ => by
    have := readCore_core nt e []
    rw [List.append_nil] at this
    unfold readCores
    show (readCore (core nt e) >>= _) = _
    rw [this]
    rfl
  | e :: f :: l, fuel + 1, _, hf => by
    unfold readCores
    show (readCore (core nt e ++ (" ".toList ++ joined nt (f :: l))) >>= _) = _
    rw [readCore_core]
    simp only [Option.bind_eq_bind, Option.bind_some]
    rw [if_neg (fun h => absurd (List.append_eq_nil_iff.mp h).1 (by decide)), expect_append, Option.bind_some,
      readCores_joined nt (f :: l) fuel nofun (by simpa using hf)]
    rfl

/-! ### Settings -/

/-- The rest of the text begins with a new line. -/
def Line (cs : List Char) : Prop := ∃ r, cs = '\n' :: r

theorem line_setting (name : String) (v rest : List Char) : Line (setting name v ++ rest) := ⟨_, rfl⟩

theorem settingLine_setting (name : String) {v : List Char} (rest : List Char) (hv : '\n' ∉ v) (hr : Line rest) :
    settingLine name (setting name v ++ rest) = some (v, rest) := by
  obtain ⟨r, rfl⟩ := hr
  have e : setting name v ++ '\n' :: r = ("\n".toList ++ name.toList) ++ (v ++ '\n' :: r) := by
    unfold setting
    show '\n' :: name.toList ++ v ++ _ = ('\n' :: name.toList) ++ (v ++ _)
    rw [List.append_assoc]
  have hp : ∀ c ∈ v, (decide (c ≠ '\n')) = true := fun c hc => decide_eq_true fun h => hv (h ▸ hc)
  unfold settingLine
  rw [e, expect_append]
  simp only [Option.bind_eq_bind, Option.bind_some, Option.pure_def]
  rw [List.takeWhile_append_of_pos hp, List.dropWhile_append_of_pos hp]
  simp

theorem boolLine_setting (name : String) (b : Bool) (rest : List Char) (hr : Line rest) :
    boolLine name (setting name (bool b) ++ rest) = some (b, rest) := by
  unfold boolLine
  cases b with
  | true =>
    rw [settingLine_setting name rest (by decide : '\n' ∉ bool true) hr]
    rfl
  | false =>
    rw [settingLine_setting name rest (by decide : '\n' ∉ bool false) hr]
    rfl

theorem quotedLine_setting (name : String) {v : List Char} (rest : List Char) (hv : '\n' ∉ v) (hr : Line rest) :
    quotedLine name (setting name (quoted v) ++ rest) = some (v, rest) := by
  have hq : '\n' ∉ quoted v := by
    unfold quoted
    simp [hv]
  unfold quotedLine
  rw [settingLine_setting name rest hq hr]
  simp only [Option.bind_eq_bind, Option.bind_some]
  unfold quoted
  rw [if_pos ⟨by simp, rfl, by rw [List.getLast?_append]; rfl⟩]
  simp

theorem natLine_setting (name : String) (n : Nat) (rest : List Char) (hr : Line rest) :
    natLine name (setting name (Nat.toDigits 10 n) ++ rest) = some (n, rest) := by
  have hq : '\n' ∉ Nat.toDigits 10 n := fun h => absurd (digits_isDigit h) (by decide)
  unfold natLine
  rw [settingLine_setting name rest hq hr]
  have := readNat_digits n (rest := []) nofun
  rw [List.append_nil] at this
  simp only [Option.bind_eq_bind, Option.bind_some, this, if_true]

theorem readConfig_config (flt : ℚ → List Char) (rd : List Char → Option ℚ) (c : FullConfig) (hc : OneLine c)
    (hf : '\n' ∉ flt c.scaleSchedule) (hr : rd (flt c.scaleSchedule) = some c.scaleSchedule) :
    readConfig rd (config flt c) = some c := by
  have hv : '\n' ∉ List.replicate c.verbosity 'v' := fun h => absurd (List.eq_of_mem_replicate h) (by decide)
  have hl : ∀ l, Line ("\n".toList ++ l) := fun l => ⟨l, rfl⟩
  have he : Line "\n}".toList := ⟨_, rfl⟩
  unfold config readConfig
  repeat rw [List.append_assoc]
  refine step (expect_append ..) ?_
  refine step (settingLine_setting _ _ hv (line_setting ..)) ?_
  refine step (settingLine_setting _ _ hc.device (hl _)) ?_
  refine step (expect_append ..) ?_
  refine step (boolLine_setting _ _ _ (line_setting ..)) ?_
  refine step (quotedLine_setting _ _ hc.workload (line_setting ..)) ?_
  refine step (boolLine_setting _ _ _ (line_setting ..)) ?_
  refine step (quotedLine_setting _ _ hc.timeline (hl _)) ?_
  refine step (expect_append ..) ?_
  refine step (settingLine_setting _ _ hc.model (line_setting ..)) ?_
  refine step (boolLine_setting _ _ _ (line_setting ..)) ?_
  refine step (natLine_setting _ _ _ (line_setting ..)) ?_
  refine step (boolLine_setting _ _ _ (hl _)) ?_
  refine step (expect_append ..) ?_
  refine step (boolLine_setting _ _ _ (line_setting ..)) ?_
  refine step (boolLine_setting _ _ _ (line_setting ..)) ?_
  refine step (boolLine_setting _ _ _ (line_setting ..)) ?_
  refine step (settingLine_setting _ _ hf (line_setting ..)) ?_
  refine step hr ?_
  refine step (boolLine_setting _ _ _ (line_setting ..)) ?_
  refine step (quotedLine_setting _ _ hc.topology (line_setting ..)) ?_
  refine step (natLine_setting _ _ _ he) ?_
  dsimp only
  rw [if_pos rfl, List.length_replicate]
  rfl

end NPE.Text
