import Verif.Proofs.Sort
import Verif.Proofs.Text

/-
Properties C120 to C122: what can be read from the texts of statistics and configurations.
-/

namespace NPE.Props
open Spec Spec.Text NPE.Text

/-! ### C120: the text of statistics -/

/-- C120.  A reader of the text gets the counts as they are, every figure up to half a tenth, the prediction error
exactly if there are golden cycles, and the time exactly if it was asked for. -/
theorem C120 (nt : ℚ → Nat) (hn : Nearest nt) (wall : Nat) (verbose : Bool) (r : DevReport) :
    ∃ v, readStats (stats nt wall verbose r) = some v ∧
      v.estimated = r.stats.estimated ∧ v.golden = r.stats.golden ∧
      (∀ n, v.wall = some n ↔ verbose = true ∧ n = wall) ∧
      Close v.impact (.num r.stats.congestionImpact) ∧
      (v.predError = none ↔ r.stats.golden = 0) ∧
      (∀ x, v.predError = some x → Close x r.summary.cyclePredictionError) ∧
      Close v.dram r.summary.dramUtil ∧ Close v.dramSim r.summary.dramUtilSim ∧
      Close v.eth r.summary.aggregateEthUtil ∧
      Close v.avgUtil r.summary.avgLinkUtil ∧ Close v.avgMcast r.summary.avgMcastUtil ∧
      Close v.maxUtil (.num r.summary.maxLinkUtil) ∧
      Close v.avgDemand r.summary.avgLinkDemand ∧ Close v.maxDemand (.num r.summary.maxLinkDemand) ∧
      Close v.avgNiu r.summary.avgNiuDemand ∧ Close v.maxNiu (.num r.summary.maxNiuDemand) := by
  refine ⟨_, readStats_stats nt wall verbose r, rfl, rfl, ?_, shown_close hn (.num _), ?_, ?_, shown_close hn _,
    shown_close hn _, shown_close hn _, shown_close hn _, shown_close hn _, shown_close hn (.num _), shown_close hn _,
    shown_close hn (.num _), shown_close hn _, shown_close hn (.num _)⟩
  · intro n
    unfold view
    cases verbose with
    | true => simp [eq_comm]
    | false => simp
  · unfold view
    by_cases hg : 0 < r.stats.golden
    · simp only [hg, if_true]
      exact ⟨nofun, fun h => absurd h (Nat.pos_iff_ne_zero.mp hg)⟩
    · simp only [hg, if_false]
      exact ⟨fun _ => Nat.eq_zero_of_not_pos hg, fun _ => trivial⟩
  · intro x hx
    unfold view at hx
    by_cases hg : 0 < r.stats.golden
    · simp only [hg, if_true] at hx
      rw [← Option.some.inj hx]
      exact shown_close hn _
    · simp only [hg, if_false] at hx
      exact absurd hx nofun

/-- The text of a report is that of the mesh. -/
theorem C120_mesh (nt : ℚ → Nat) (wall : Nat) (verbose : Bool) (r : Report) (d : DevReport)
    (h : r.lookup MESH_DEVICE = some d) : report nt wall verbose r = .ok (stats nt wall verbose d) := by
  unfold report
  rw [h]

/-- Two reports with the same text have the same counts, and figures that differ by at most a tenth. -/
theorem C120_same (nt : ℚ → Nat) (hn : Nearest nt) (wall wall' : Nat) (verbose : Bool) (r r' : DevReport)
    (h : stats nt wall verbose r = stats nt wall' verbose r') (x x' : ℚ) (hx : r.summary.dramUtil = .num x)
    (hx' : r'.summary.dramUtil = .num x') :
    r.stats.estimated = r'.stats.estimated ∧ r.stats.golden = r'.stats.golden ∧ |x - x'| ≤ 1 / 10 := by
  obtain ⟨v, hv, h1, h2, _, _, _, _, h3, _⟩ := C120 nt hn wall verbose r
  obtain ⟨v', hv', h1', h2', _, _, _, _, h3', _⟩ := C120 nt hn wall' verbose r'
  rw [h, hv'] at hv
  obtain rfl : v' = v := Option.some.inj hv
  refine ⟨h1.symm.trans h1', h2.symm.trans h2', ?_⟩
  rw [hx] at h3
  rw [hx'] at h3'
  cases hd : v'.dram with
  | num y =>
    rw [hd] at h3 h3'
    have a : |y - x| ≤ 1 / 20 := h3
    have b : |y - x'| ≤ 1 / 20 := h3'
    rw [abs_le] at a b ⊢
    constructor <;> linarith [a.1, a.2, b.1, b.2]
  | _ => rw [hd] at h3; exact h3.elim

/-- Halves are rounded up. -/
def upTenths (x : ℚ) : Nat := ⌊10 * x + 1 / 2⌋.toNat

theorem up_nearest : Nearest upTenths := by
  intro x hx
  unfold upTenths
  have h0 : (0 : ℤ) ≤ ⌊10 * x + 1 / 2⌋ := Int.floor_nonneg.mpr (by linarith)
  have e : ((⌊10 * x + 1 / 2⌋.toNat : Nat) : ℚ) = (⌊10 * x + 1 / 2⌋ : ℤ) := by
    exact_mod_cast congrArg (Int.cast (R := ℚ)) (Int.toNat_of_nonneg h0)
  rw [e]
  have h1 := Int.floor_le (10 * x + 1 / 2)
  have h2 := Int.lt_floor_add_one (10 * x + 1 / 2)
  rw [abs_le]
  constructor <;> linarith

/-- A report with golden cycles, negative and missing figures. -/
def sampleReport : DevReport where
  stats := { estimated := 970, estimatedCongFree := 1000, golden := 123456 }
  summary := ⟨.num (-9921 / 100), .num (1 / 4), 7, .num (2 / 3), 100, .nan, 0, .nan, .nan, 0, .nan, .nan, 0, .num (1 / 20),
    .num (12345 / 10), .inf, []⟩

example : String.ofList (stats upTenths 17 true sampleReport) =
  "  congestion impact:  -3.1%\n   estimated cycles:   970\n      golden cycles: 123456\n   cycle pred error: -99.2%\n\n" ++
  "       DRAM BW Util: 1234.5% (using golden)\n       DRAM BW Util:   inf% (using estimated)\n" ++
  "        ETH BW Util:   0.0%\n\n      avg Link util:   0.7%\n avg Mcast link util:   0.1%\n" ++
  "      max Link util: 100.0%\n\n    avg Link demand:   0.3%\n    max Link demand:   7.0%\n\n" ++
  "    avg NIU  demand:   nan%\n    max NIU  demand:   0.0%\n\n   wallclock time:    17 us\n" := by decide +kernel

/-! ### C121: the text of the ethernet cores -/

theorem before_total (a b : Coord × Dbl) (h : (!before b a) = false) : (!before a b) = true := by
  unfold before at h ⊢
  simp only [Bool.not_eq_false', decide_eq_true_eq] at h
  simp only [Bool.not_eq_true', decide_eq_false_iff_not]
  omega

theorem before_trans (a b c : Coord × Dbl) (h1 : (!before b a) = true) (h2 : (!before c b) = true) :
    (!before c a) = true := by
  unfold before at h1 h2 ⊢
  simp only [Bool.not_eq_true', decide_eq_false_iff_not] at h1 h2 ⊢
  omega

/-- Different cores sorted by `getEthBwUtilPerCoreStr`. -/
theorem sorted_ascending {l : List (Coord × Dbl)} (hn : (l.map (·.1)).Nodup) :
    Ascending (sortBy (fun a b => !before b a) l) := by
  have hp := sortBy_perm (fun a b => !before b a) l
  have hs := sortBy_pairwise (le := fun a b => !before b a) before_total before_trans l
  have hd : ((sortBy (fun a b => !before b a) l).map (·.1)).Nodup := (hp.map _).nodup_iff.mpr hn
  unfold Ascending
  rw [List.Nodup, List.pairwise_map] at hd
  refine (hs.and hd).imp ?_
  rintro a b ⟨h1, h2⟩
  unfold before at h1
  simp only [Bool.not_eq_true', decide_eq_false_iff_not] at h1
  have : ¬ (a.1.dev = b.1.dev ∧ a.1.row = b.1.row ∧ a.1.col = b.1.col) := fun h => h2 (by
    obtain ⟨x, y, z⟩ := h
    cases ha : a.1
    cases hb : b.1
    rw [ha, hb] at x y z
    simp only at x y z
    rw [x, y, z])
  omega

theorem ascending_unique {a b : List (Coord × Dbl)} (hp : a.Perm b) (ha : Ascending a) (hb : Ascending b) : a = b :=
  hp.eq_of_pairwise (fun x y _ _ h1 h2 => absurd h2 (by omega)) ha hb

/-- C121.  A reader of the text gets every core exactly once, in ascending order, with its figure up to half a
tenth. -/
theorem C121_read (nt : ℚ → Nat) (hn : Nearest nt) (l : List (Coord × Dbl)) (hd : (l.map (·.1)).Nodup) :
    ∃ v, readEth (ethPerCore nt l) = some v ∧ Ascending v ∧ (v.map (·.1)).Perm (l.map (·.1)) ∧
      ∀ c x y, (c, x) ∈ l → (c, y) ∈ v → Close y x := by
  have hp := sortBy_perm (fun a b => !before b a) l
  refine ⟨(sortBy (fun a b => !before b a) l).map fun e => (e.1, shown nt e.2), ?_, ?_, ?_, ?_⟩
  · unfold ethPerCore readEth
    by_cases hl : l = []
    · rw [hl]; rfl
    · have hne : (sortBy (fun a b => !before b a) l) ≠ [] := fun h => hl (by
        have := hp.length_eq
        rw [h] at this
        exact List.eq_nil_of_length_eq_zero this.symm)
      rw [if_neg hl, cores_joined]
      have hj := readCores_joined nt _ _ hne (joined_length nt _)
      rw [if_neg, hj]
      intro h
      rw [h] at hj
      exact absurd hj (by show (none : Option _) ≠ _; exact nofun)
  · have := sorted_ascending hd
    unfold Ascending at this ⊢
    rw [List.pairwise_map]
    exact this
  · rw [List.map_map]
    exact hp.map _
  · intro c x y hx hy
    obtain ⟨e, he, heq⟩ := List.mem_map.mp hy
    have hel := hp.mem_iff.mp he
    have h1 : e.1 = c := congrArg Prod.fst heq
    have h2 : shown nt e.2 = y := congrArg Prod.snd heq
    obtain rfl : e = (c, x) := by
      have := List.inj_on_of_nodup_map hd hel hx h1
      exact this
    rw [← h2]
    exact shown_close hn x

/-- C121.  The text does not depend on the order in which the hash map lists the cores. -/
theorem C121_order (nt : ℚ → Nat) (l l' : List (Coord × Dbl)) (hp : l.Perm l') (hd : (l.map (·.1)).Nodup) :
    ethPerCore nt l = ethPerCore nt l' := by
  have hd' : (l'.map (·.1)).Nodup := (hp.map _).nodup_iff.mp hd
  unfold ethPerCore
  by_cases hl : l = []
  · subst hl
    rw [List.nil_perm.mp hp]
  · have hl' : l' ≠ [] := fun h => hl (by rw [h] at hp; exact List.perm_nil.mp hp)
    rw [if_neg hl, if_neg hl', ascending_unique (((sortBy_perm _ l).trans hp).trans (sortBy_perm _ l').symm)
      (sorted_ascending hd) (sorted_ascending hd')]

example : String.ofList (ethPerCore upTenths [(⟨1, 0, 3⟩, .num 12), (⟨0, 6, 9⟩, .num (1 / 3)), (⟨0, 6, 1⟩, .inf)]) =
    "(0,6,1):inf% (0,6,9):0.3% (1,0,3):12.0%" ∧ ethPerCore upTenths [] = ['-'] := by
  decide +kernel

/-! ### C122: the text of a configuration -/

/-- The full claim: the text determines the configuration. -/
def C122_claim : Prop :=
  ∀ (flt : ℚ → List Char) (rd : List Char → Option ℚ), (∀ x, rd (flt x) = some x ∧ '\n' ∉ flt x) →
    ∀ c c' : FullConfig, config flt c = config flt c' → c = c'

/-- C122, partial.  If no name has several lines, the configuration can be read from its text. -/
theorem C122_partial (flt : ℚ → List Char) (rd : List Char → Option ℚ) (hf : ∀ x, rd (flt x) = some x ∧ '\n' ∉ flt x)
    (c : FullConfig) (hc : OneLine c) : readConfig rd (config flt c) = some c :=
  readConfig_config flt rd c hc (hf _).2 (hf _).1

/-- So configurations with such names and the same text are the same. -/
theorem C122_same_partial (flt : ℚ → List Char) (rd : List Char → Option ℚ) (hf : ∀ x, rd (flt x) = some x ∧ '\n' ∉ flt x)
    (c c' : FullConfig) (hc : OneLine c) (hc' : OneLine c') (h : config flt c = config flt c') : c = c' := by
  have h1 := C122_partial flt rd hf c hc
  rw [h, C122_partial flt rd hf c' hc'] at h1
  exact (Option.some.inj h1).symm

/-- The level of verbosity is always one of the four. -/
theorem C122_verbosity (c : FullConfig) (v : Int) : (c.setVerbosity v).verbosity ≤ 3 ∧
    (0 ≤ v → v ≤ 3 → ((c.setVerbosity v).verbosity : Int) = v) := by
  unfold FullConfig.setVerbosity
  simp only
  omega

/-- Fractions in lowest terms. -/
def fltText (x : ℚ) : List Char := Format.int x.num ++ '/' :: Nat.toDigits 10 x.den

/-- Their reader. -/
def fltRead (cs : List Char) : Option ℚ := do
  let (n, cs) ← readInt cs
  let cs ← expect "/".toList cs
  let (d, _) ← readNat cs
  return (n : ℚ) / d

theorem flt_law (x : ℚ) : fltRead (fltText x) = some x ∧ '\n' ∉ fltText x := by
  constructor
  · have hs : Format.Stop ("/".toList ++ Nat.toDigits 10 x.den) := Format.stop_cons (c := '/') (by decide)
    unfold fltRead
    show (readInt (Format.int x.num ++ ("/".toList ++ Nat.toDigits 10 x.den)) >>= _) = _
    refine step (Format.readInt_int _ hs) ?_
    refine step (Format.expect_append ..) ?_
    have := Format.readNat_digits x.den (rest := []) nofun
    rw [List.append_nil] at this
    refine step this ?_
    show some _ = some _
    rw [Rat.num_div_den]
  · unfold fltText
    intro h
    rcases List.mem_append.mp h with h | h
    · cases hx : x.num with
      | ofNat n => rw [hx] at h; exact absurd (Format.digits_isDigit h) (by decide)
      | negSucc n =>
        rw [hx] at h
        rcases List.mem_cons.mp h with h | h
        · exact absurd h (by decide)
        · exact absurd (Format.digits_isDigit h) (by decide)
    · rcases List.mem_cons.mp h with h | h
      · exact absurd h (by decide)
      · exact absurd (Format.digits_isDigit h) (by decide)

/-- What stands between two file names. -/
def between : String := "\"\n  emit_timeline_file                 = false\n  timeline_filepath                  = \""

/-- Violated: names are printed as they are, quotes and new lines included, so two configurations with different files
can look the same. -/
theorem C122_violated : ¬ C122_claim := by
  intro h
  have := h fltText fltRead flt_law { workloadJson := "x".toList, timelinePath := ("y" ++ between ++ "z").toList }
    { workloadJson := ("x" ++ between ++ "y").toList, timelinePath := "z".toList } (by decide +kernel)
  exact absurd (congrArg FullConfig.timelinePath this) (by decide +kernel)

example : OneLine {} ∧ readConfig fltRead (config fltText { verbosity := 2, scaleSchedule := -3 / 7 }) =
    some { verbosity := 2, scaleSchedule := -3 / 7 } :=
  ⟨⟨by decide, by decide, by decide, by decide, by decide⟩, by decide +kernel⟩

end NPE.Props
