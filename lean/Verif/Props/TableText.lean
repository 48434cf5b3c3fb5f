import Verif.Proofs.TableText
import Verif.Props.Analyze
import Verif.Props.Text

/-
Property C133: what can be read from the summary table of the analysis script.
-/

namespace NPE.Props
open Spec Spec.Text Spec.Table NPE.Text Analyze

/-- The rows and the number below them, for any limit. -/
theorem table_read {fp : FP} (nh nt : ℚ → Nat) (hn : Nearest nt) (hn2 : Nearest2 nh) (ds : Datapoints) (hne : ds ≠ [])
    (hg : ∀ e ∈ ds, e.2.result.goldenCycles ≠ 0) (hw : ∀ e ∈ ds, AllWord e.2.opName)
    (hk : ∀ e ∈ ds, (e.2.result.ethUtil.map (·.1)).Nodup) (maxDisplay : Int) :
    ∃ (t : List (List Char)) (v : TableView) (evs : List Datapoint) (a b c d : Dbl),
      tableText fp nh nt ds maxDisplay = .ok t ∧ readTable t = some v ∧ sortedEvents fp ds = .ok evs ∧
      v.rows.length = min maxDisplay.toNat evs.length ∧
      v.omitted = (if maxDisplay.toNat < evs.length then (evs.length : Int) - maxDisplay else 0) ∧
      (∀ (i : Nat) (row : Row), v.rows[i]? = some row → ∃ d, evs[i]? = some d ∧ Says row d (ds.map fun e => (e.2.result.goldenCycles : ℚ)).sum) ∧
      avgLinkUtil ds = .ok a ∧ weightedLinkUtil ds = .ok b ∧ weightedDramUtil ds = .ok c ∧ weightedEthUtil ds = .ok d ∧
      v.avgLink = shown nt a ∧ v.link = shown nt b ∧ v.dram = shown nt c ∧ v.eth = shown nt d := by
  have hc : cycles ds ≠ 0 := by
    obtain ⟨e, l, rfl⟩ := List.exists_cons_of_ne_nil hne
    unfold cycles
    have := hg e List.mem_cons_self
    simp only [List.map_cons, List.sum_cons]
    omega
  obtain ⟨evs, he⟩ := sortedEvents_ok (fp := fp) hg
  obtain ⟨a, ha⟩ := over_ok (total (ds.map fun e => e.2.result.avgLinkUtil)) (n := ds.length)
    (fun h => hne (List.length_eq_zero_iff.mp h))
  have hwt : ∀ f, ∃ y, weighted f ds = .ok y := fun f => over_ok _ hc
  obtain ⟨b, hb⟩ := hwt (·.avgLinkUtil)
  obtain ⟨c, hc'⟩ := hwt (·.dramUtil)
  obtain ⟨d, hd⟩ := hwt (·.aggregateEth)
  have hmem : ∀ x ∈ evs, ∃ e ∈ ds, e.2 = x := by
    intro x hx
    have hp : evs.Perm (ds.map (·.2)) := by
      unfold sortedEvents at he
      obtain ⟨l, hl, h⟩ := Out.bind_eq_ok.mp he
      obtain ⟨h1, _⟩ := keyed_ok hl
      rw [← Out.ok.inj h, ← h1]
      exact (sortBy_perm _ l).map _
    exact List.mem_map.mp (hp.subset hx)
  have hread : ∀ x ∈ evs, ∃ eth, readEth (ethPerCore nt x.result.ethUtil) = some eth ∧ Ascending eth ∧
      (eth.map (·.1)).Perm (x.result.ethUtil.map (·.1)) ∧
      ∀ c u w, (c, u) ∈ x.result.ethUtil → (c, w) ∈ eth → Close w u := by
    intro x hx
    obtain ⟨e, hm, rfl⟩ := hmem x hx
    exact C121_read nt hn _ (hk e hm)
  let share : Datapoint → Dbl := fun d => .num (100 * ((d.result.goldenCycles : ℚ) / cycles ds))
  let ethOf : Datapoint → List (Coord × Dbl) := fun x => (readEth (ethPerCore nt x.result.ethUtil)).getD []
  let rows := (evs.take (maxDisplay - (0 : Nat)).toNat).map fun d => rowText nh nt d (share d)
  let om : List (List Char) :=
    if (maxDisplay - (0 : Nat)).toNat < evs.length then [omittedText (evs.length - maxDisplay)] else []
  let means := [meanText nt "average link util                : " a, meanText nt "cycle-weighted overall link util : " b,
      meanText nt "cycle-weighted dram bw util      : " c, meanText nt "cycle-weighted eth bw util       : " d]
  have htext : tableText fp nh nt ds maxDisplay =
      .ok (separator :: heading :: separator :: ((rows ++ om) ++ (separator :: means))) := by
    unfold tableText
    rw [he, Out.bind_ok, rowTexts_ok nh nt ds hc, Out.bind_ok]
    unfold avgLinkUtil weightedLinkUtil weightedDramUtil weightedEthUtil
    rw [ha, Out.bind_ok, hb, Out.bind_ok, hc', Out.bind_ok, hd, Out.bind_ok]
  have hrows : ∀ l ∈ rows, (!isRule l && (readOmitted l).isNone) = true := by
    intro l hl
    obtain ⟨x, hx, rfl⟩ := List.mem_map.mp hl
    obtain ⟨e, hm, rfl⟩ := hmem x (List.mem_of_mem_take hx)
    exact row_isRow nh nt _ (hw e hm)
  have hsep : (!isRule separator && (readOmitted separator).isNone) = false := by
    rw [isRule_separator]
    rfl
  have hom : ∀ n, (!isRule (omittedText n) && (readOmitted (omittedText n)).isNone) = false := by
    intro n
    rw [readOmitted_text, Bool.and_eq_false_iff]
    exact .inr rfl
  have htake : ((rows ++ om) ++ (separator :: means)).takeWhile (fun l => (!isRule l && (readOmitted l).isNone)) = rows := by
    rw [List.append_assoc, List.takeWhile_append_of_pos hrows]
    show rows ++ List.takeWhile _ ((if _ then _ else _) ++ _) = rows
    split
    · rw [List.singleton_append, List.takeWhile_cons_of_neg (by rw [hom]; decide), List.append_nil]
    · rw [List.nil_append, List.takeWhile_cons_of_neg (by rw [hsep]; decide), List.append_nil]
  have hdrop : ((rows ++ om) ++ (separator :: means)).dropWhile (fun l => (!isRule l && (readOmitted l).isNone)) =
      om ++ (separator :: means) := by
    rw [List.append_assoc, List.dropWhile_append_of_pos hrows]
    show List.dropWhile _ ((if _ then _ else _) ++ _) = (if _ then _ else _) ++ _
    split
    · rw [List.singleton_append, List.dropWhile_cons_of_neg (by rw [hom]; decide)]
    · rw [List.nil_append, List.dropWhile_cons_of_neg (by rw [hsep]; decide)]
  have hmaybe : maybeOmitted (om ++ (separator :: means)) =
      ((if maxDisplay.toNat < evs.length then (evs.length : Int) - maxDisplay else 0), separator :: means) := by
    have e : (maxDisplay - (0 : Nat)).toNat = maxDisplay.toNat := by omega
    show maybeOmitted ((if (maxDisplay - (0 : Nat)).toNat < evs.length then _ else _) ++ _) = _
    rw [e]
    split
    · exact maybeOmitted_text _ _
    · exact maybeOmitted_absent _
  have hrr : readRows rows = some ((evs.take (maxDisplay - (0 : Nat)).toNat).map fun x => rowView nh x (share x) (ethOf x)) := by
    apply readRows_map
    intro x hx
    have hx := List.mem_of_mem_take hx
    obtain ⟨e, hm, hex⟩ := hmem x hx
    obtain ⟨eth, h1, _⟩ := hread x hx
    have : ethOf x = eth := by
      show (readEth _).getD [] = eth
      rw [h1]; rfl
    rw [this]
    exact readRow_rowText nh nt x (share x) (hex ▸ (hw e hm).no_space) h1
  have hmeans : readMeans means = some (shown nt a, shown nt b, shown nt c, shown nt d) := by
    exact readMeans_four (readMean_text nt "average link util" 16 a _ (by decide +kernel))
      (readMean_text nt "cycle-weighted overall link util" 1 b _ (by decide +kernel))
      (readMean_text nt "cycle-weighted dram bw util" 6 c _ (by decide +kernel))
      (readMean_text nt "cycle-weighted eth bw util" 7 d _ (by decide +kernel))
  refine ⟨_, ⟨(evs.take (maxDisplay - (0 : Nat)).toNat).map fun x => rowView nh x (share x) (ethOf x),
    (if maxDisplay.toNat < evs.length then (evs.length : Int) - maxDisplay else 0), shown nt a, shown nt b, shown nt c,
    shown nt d⟩, evs, a, b, c, d, htext, ?_, he, ?_, rfl, ?_, ha, hb, hc', hd, rfl, rfl, rfl, rfl⟩
  · rw [readTable, if_pos ⟨isRule_separator, isRule_separator⟩, htake, hrr]
    simp only [Option.bind_eq_bind, Option.bind_some]
    rw [hdrop, hmaybe]
    simp only
    rw [if_pos isRule_separator, hmeans]
    simp only [Option.bind_some, Option.pure_def]
  · rw [List.length_map, List.length_take, show (maxDisplay - ((0 : Nat) : Int)).toNat = maxDisplay.toNat by omega]
  · intro i row hi
    simp only [List.getElem?_map, Option.map_eq_some_iff] at hi
    obtain ⟨x, hx, rfl⟩ := hi
    have hxe : evs[i]? = some x := by
      rw [List.getElem?_take] at hx
      split at hx
      · exact hx
      · cases hx
    refine ⟨x, hxe, ?_⟩
    obtain ⟨eth, h1, h2, h3, h4⟩ := hread x (List.mem_of_getElem? hxe)
    have he' : ethOf x = eth := by
      show (readEth _).getD [] = eth
      rw [h1]; rfl
    refine ⟨rfl, rfl, rfl, shown2_close hn2 _, shown2_close hn2 _, shown2_close hn2 _, ?_, ?_, ?_, ?_, ?_⟩
    · intro e1 e2
      have : (100 * (1 - (x.result.estimatedCongFreeCycles : ℚ) / x.result.estimatedCycles)) = impact x.result := by
        unfold impact
        rw [if_neg (not_or.mpr ⟨e1, e2⟩)]
        have : (x.result.estimatedCycles : ℚ) ≠ 0 := by exact_mod_cast e1
        field_simp
      rw [this]
      exact shown2_close hn2 (.num (impact x.result))
    · have : (100 * (x.result.goldenCycles : ℚ) / (ds.map fun e => (e.2.result.goldenCycles : ℚ)).sum) =
          100 * ((x.result.goldenCycles : ℚ) / cycles ds) := by
        rw [cycles_cast, mul_div_assoc]
      rw [this]
      exact shown2_close hn2 (share x)
    · exact he' ▸ h2
    · exact he' ▸ h3
    · intro c u w hu hw
      exact h4 c u w hu (he' ▸ hw)

/-- The names that the script takes from file names have no spaces. -/
theorem C133_names {name : List Char} {f : TraceFile} (h : extract name = some f) :
    ∀ c ∈ f.opName, Spec.Analyze.Word c :=
  fun c hc => (isWord_iff c).mp (extract_word h c hc)

/-- What a table says about datapoints when at most `maxDisplay` rows are wanted: rows of the datapoints with the most
golden cycles, in this order, the number of the others, and the means. -/
structure Reports (v : TableView) (ds : Datapoints) (maxDisplay : Nat) (link dram eth : Datapoint → ℚ) : Prop where
  rows : ∃ evs : List Datapoint, evs.Perm (ds.map (·.2)) ∧
    evs.Pairwise (fun a b => b.result.goldenCycles ≤ a.result.goldenCycles) ∧
    ∀ (i : Nat) (row : Row), v.rows[i]? = some row →
      ∃ d, evs[i]? = some d ∧ Says row d (ds.map fun e => (e.2.result.goldenCycles : ℚ)).sum
  shown : v.rows.length = min maxDisplay ds.length
  omitted : (v.rows.length : Int) + v.omitted = ds.length
  avgLink : ∃ x, Close v.avgLink (.num x) ∧ x * ds.length = (ds.map fun e => link e.2).sum
  link : ∃ x, Close v.link (.num x) ∧ x * (ds.map fun e => (e.2.result.goldenCycles : ℚ)).sum =
    (ds.map fun e => link e.2 * e.2.result.goldenCycles).sum
  dram : ∃ x, Close v.dram (.num x) ∧ x * (ds.map fun e => (e.2.result.goldenCycles : ℚ)).sum =
    (ds.map fun e => dram e.2 * e.2.result.goldenCycles).sum
  eth : ∃ x, Close v.eth (.num x) ∧ x * (ds.map fun e => (e.2.result.goldenCycles : ℚ)).sum =
    (ds.map fun e => eth e.2 * e.2.result.goldenCycles).sum

/-- C133 (missing: a negative number of rows, see `C133_violated_negative`, and the chip, which no row names, see
`C133_violated_chip`).  A reader of the printed table finds the datapoints with the most golden cycles in the right
order, each with its name, its ids and its figures up to half of the last place, the number of datapoints that are not
listed, and the means. -/
theorem C133_partial {fp : FP} (hd : fp.Double) (nh nt : ℚ → Nat) (hn : Nearest nt) (hn2 : Nearest2 nh) (ds : Datapoints)
    (hne : ds ≠ []) (hg : ∀ e ∈ ds, 0 < e.2.result.goldenCycles ∧ e.2.result.goldenCycles ≤ 4503599627370496)
    (hw : ∀ e ∈ ds, ∀ c ∈ e.2.opName, Spec.Analyze.Word c) (hk : ∀ e ∈ ds, (e.2.result.ethUtil.map (·.1)).Nodup)
    (link dram eth : Datapoint → ℚ) (hl : ∀ e ∈ ds, e.2.result.avgLinkUtil = .num (link e.2))
    (hdr : ∀ e ∈ ds, e.2.result.dramUtil = .num (dram e.2)) (he : ∀ e ∈ ds, e.2.result.aggregateEth = .num (eth e.2))
    (maxDisplay : Nat) :
    ∃ t v, tableText fp nh nt ds maxDisplay = .ok t ∧ readTable t = some v ∧ Reports v ds maxDisplay link dram eth := by
  have hg0 : ∀ e ∈ ds, e.2.result.goldenCycles ≠ 0 := fun e hm => (hg e hm).1.ne'
  obtain ⟨t, v, evs, a, b, c, d, h1, h2, h3, h4, h5, h6, ha, hb, hc, hd', va, vb, vc, vd⟩ :=
    table_read (fp := fp) nh nt hn hn2 ds hne hg0 (fun e hm c hc => (isWord_iff c).mpr (hw e hm c hc)) hk maxDisplay
  obtain ⟨hp, hs⟩ := C83_sorted_rounded hd h3 fun e hm => (hg e hm).2
  have hlen : evs.length = ds.length := by rw [hp.length_eq, List.length_map]
  have hcy : cycles ds ≠ 0 := by
    obtain ⟨e, l, rfl⟩ := List.exists_cons_of_ne_nil hne
    unfold cycles
    have := hg0 e List.mem_cons_self
    simp only [List.map_cons, List.sum_cons]
    omega
  have hmean : ∀ {f : PyStats → Dbl} {g : Datapoint → ℚ} {y : Dbl}, (∀ e ∈ ds, f e.2.result = .num (g e.2)) →
      weighted f ds = .ok y → ∃ x, Close (shown nt y) (.num x) ∧
        x * (ds.map fun e => (e.2.result.goldenCycles : ℚ)).sum = (ds.map fun e => g e.2 * e.2.result.goldenCycles).sum := by
    intro f g y hf hy
    obtain ⟨x, hx, hsum, _⟩ := C83_weighted f g ds hcy hf
    rw [hx] at hy
    rw [← Out.ok.inj hy]
    exact ⟨x, shown_close hn _, cycles_cast ds ▸ hsum⟩
  refine ⟨t, v, h1, h2, ⟨evs, hp, hs, h6⟩, ?_, ?_, ?_, vb ▸ hmean hl hb, vc ▸ hmean hdr hc, vd ▸ hmean he hd'⟩
  · rw [h4, hlen, Int.toNat_natCast]
  · rw [h4, h5, hlen, Int.toNat_natCast]
    split <;> omega
  · have hsum : total (ds.map fun e => e.2.result.avgLinkUtil) = .num (ds.map fun e => link e.2).sum := by
      rw [← total_num, List.map_map]
      congr 1
      apply List.map_congr_left
      intro e hm
      exact hl e hm
    have hl0 : (ds.length : ℚ) ≠ 0 := by
      have := List.length_pos_iff.mpr hne
      positivity
    unfold avgLinkUtil over at ha
    rw [if_neg (fun hz => hne (List.length_eq_zero_iff.mp hz)), hsum] at ha
    rw [va, ← Out.ok.inj ha]
    exact ⟨_, shown_close hn _, div_mul_cancel₀ _ hl0⟩

/-- Rows with the same text are about the same operation of the same trace. -/
theorem C133_same_partial (nh nt : ℚ → Nat) (hn : Nearest nt) (d d' : Datapoint) (x x' : Dbl)
    (hw : ∀ c ∈ d.opName, Spec.Analyze.Word c) (hw' : ∀ c ∈ d'.opName, Spec.Analyze.Word c)
    (hk : (d.result.ethUtil.map (·.1)).Nodup) (hk' : (d'.result.ethUtil.map (·.1)).Nodup)
    (h : rowText nh nt d x = rowText nh nt d' x') : d.opName = d'.opName ∧ d.uid = d'.uid := by
  obtain ⟨e, he, _⟩ := C121_read nt hn _ hk
  obtain ⟨e', he', _⟩ := C121_read nt hn _ hk'
  have h1 := readRow_rowText nh nt d x (AllWord.no_space fun c hc => (isWord_iff c).mpr (hw c hc)) he
  have h2 := readRow_rowText nh nt d' x' (AllWord.no_space fun c hc => (isWord_iff c).mpr (hw' c hc)) he'
  rw [h, h2] at h1
  have hv := Option.some.inj h1
  have hop : d'.uid.op = d.uid.op := congrArg Row.op hv
  have htr : d'.uid.trace = d.uid.trace := congrArg Row.trace hv
  refine ⟨(congrArg Row.name hv).symm, ?_⟩
  cases hd : d.uid
  cases hd' : d'.uid
  rw [hd, hd'] at hop htr
  cases hop
  cases htr
  rfl

/-- C133 does not hold for a negative number of rows: there is no row, and more datapoints than there are are said to be
left out. -/
theorem C133_violated_negative {fp : FP} (nh nt : ℚ → Nat) (hn : Nearest nt) (hn2 : Nearest2 nh) (ds : Datapoints)
    (hne : ds ≠ []) (hg : ∀ e ∈ ds, 0 < e.2.result.goldenCycles)
    (hw : ∀ e ∈ ds, ∀ c ∈ e.2.opName, Spec.Analyze.Word c) (hk : ∀ e ∈ ds, (e.2.result.ethUtil.map (·.1)).Nodup)
    (maxDisplay : Int) (hm : maxDisplay < 0) :
    ∃ t v, tableText fp nh nt ds maxDisplay = .ok t ∧ readTable t = some v ∧ v.rows = [] ∧
      v.omitted = ds.length - maxDisplay ∧ (ds.length : Int) < v.omitted := by
  have hg0 : ∀ e ∈ ds, e.2.result.goldenCycles ≠ 0 := fun e hm => (hg e hm).ne'
  obtain ⟨t, v, evs, a, b, c, d, h1, h2, h3, h4, h5, -⟩ :=
    table_read (fp := fp) nh nt hn hn2 ds hne hg0 (fun e hm c hc => (isWord_iff c).mpr (hw e hm c hc)) hk maxDisplay
  have hlen : evs.length = ds.length := by
    unfold sortedEvents at h3
    obtain ⟨l, hl, h⟩ := Out.bind_eq_ok.mp h3
    obtain ⟨k1, _⟩ := keyed_ok hl
    have := congrArg List.length k1
    rw [List.length_map, List.length_map] at this
    rw [← Out.ok.inj h, List.length_map, (sortBy_perm _ l).length_eq, this]
  have hpos := List.length_pos_iff.mpr hne
  have hz : maxDisplay.toNat = 0 := by omega
  rw [hz, hlen] at h4 h5
  rw [if_pos hpos] at h5
  refine ⟨t, v, h1, h2, List.eq_nil_of_length_eq_zero (by omega), h5, by omega⟩

/-- C133 does not hold because of the chips: an operation has one row per chip, and nothing in a row says which chip it is
about. -/
theorem C133_violated_chip (nh nt : ℚ → Nat) (d : Datapoint) (dev : Int) (x : Dbl) :
    rowText nh nt d x = rowText nh nt { d with dev := dev } x := rfl

/-- Halves are rounded up. -/
def upHundredths (x : ℚ) : Nat := ⌊100 * x + 1 / 2⌋.toNat

theorem upHundredths_nearest : Nearest2 upHundredths := by
  intro x hx
  have h0 : 0 ≤ ⌊100 * x + 1 / 2⌋ := Int.floor_nonneg.mpr (by linarith)
  have h1 := Int.floor_le (100 * x + 1 / 2)
  have h2 := Int.lt_floor_add_one (100 * x + 1 / 2)
  have h3 : ((upHundredths x : Nat) : ℚ) = ((⌊100 * x + 1 / 2⌋ : Int) : ℚ) := by
    unfold upHundredths
    exact_mod_cast congrArg (Int.cast (R := ℚ)) (Int.toNat_of_nonneg h0)
  rw [h3, abs_le]
  constructor <;> linarith

/-- The table of the example of C84 with two rows: the chips are not named, and one row is left out. -/
example : (match tableText .ieee upHundredths upTenths (collect sampleRuns) 2 with
    | .ok t => (t.drop 3).map String.ofList | _ => []) =
    ["b                                              2               7         20.00%              0.00%          0.00%          0.00%              60.00%  -",
     "a                                              1                         10.00%              0.00%          0.00%          0.00%              30.00%  -",
     "... 1 operations omitted; use -m $NUM_ROWS to display more",
     String.ofList separator,
     "average link util                : 26.7% ",
     "cycle-weighted overall link util : 20.0% ",
     "cycle-weighted dram bw util      : 0.0% ",
     "cycle-weighted eth bw util       : 0.0% "] := by
  decide +kernel

/-- Read back; and with a limit of -3 rows six of three datapoints are left out. -/
example : (match tableText .ieee upHundredths upTenths (collect sampleRuns) 2 with
    | .ok t => (readTable t).map fun v => (v.rows.map fun r => (r.op, r.trace, r.noc, r.share), v.omitted) | _ => none) =
      some ([(2, some 7, .num 20, .num 60), (1, none, .num 10, .num 30)], 1) ∧
    (match tableText .ieee upHundredths upTenths (collect sampleRuns) (-3) with
    | .ok t => (readTable t).map fun v => (v.rows.length, v.omitted) | _ => none) = some (0, 6) := by
  decide +kernel

end NPE.Props
