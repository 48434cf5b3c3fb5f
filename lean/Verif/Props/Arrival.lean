import Verif.Proofs.Keys
import Verif.Proofs.GroupOrder
import Verif.Props.Analyze
import Verif.Props.Directory
import Mathlib.Data.List.Sort

/-
Property C148: which operation is estimated first shows only among equally long operations.
-/

namespace NPE.Props
open NPE.Spec NPE.Spec.Analyze NPE.Analyze Out

/-- The results of the jobs of different operations are those of different operations, with one entry for each chip. -/
theorem work_separate {fp : FP} {o : Options} {s : Setting} {jobs : List Job}
    {rs : List (WorkerResult × List (List Char × Json))} (hu : (jobs.map (·.uid)).Nodup)
    (h : mapM (work fp o s) jobs = .ok rs) : Separate (rs.map (·.1)) := by
  rw [mapM_eq_ok] at h
  constructor
  · rw [List.pairwise_map]
    refine pairwise_forall₂ h (List.pairwise_map.mp hu) fun j _ j' _ r r' hne hw hw' x y hx hy => ?_
    rcases work_cases (r := r.1) (files := r.2) hw with ⟨rep, _, h1⟩ | ⟨_, h1, _⟩
    · rcases work_cases (r := r'.1) (files := r'.2) hw' with ⟨rep', _, h2⟩ | ⟨_, h2, _⟩
      · rw [h1] at hx
        rw [h2] at hy
        rw [← Option.some.inj hx, ← Option.some.inj hy]
        exact hne
      · rw [h2] at hy; cases hy
    · rw [h1] at hx; cases hx
  · intro x hx
    obtain ⟨r, hr, hx⟩ := List.mem_map.mp hx
    obtain ⟨j, _, hw⟩ := forall₂_right h r hr
    rcases work_cases (r := r.1) (files := r.2) hw with ⟨rep, hrun, h1⟩ | ⟨_, h1, _⟩
    · rw [hx] at h1
      rw [Option.some.inj h1]
      show ((rep.map fun e => (e.1, e.2.visible j.wall)).map (·.1)).Nodup
      rw [List.map_map]
      exact runNpe_nodup hrun
    · rw [hx] at h1; cases h1

theorem percentiles_perm {l l' : List ℚ} (h : l.Perm l') : percentiles l = percentiles l' := by
  have hs : ∀ l : List ℚ, (sortBy (fun (a b : ℚ) => decide (a ≤ b)) l).Pairwise (fun a b => a ≤ b) := by
    intro l
    have := sortBy_pairwise (le := fun (a b : ℚ) => decide (a ≤ b)) (fun a b hab => by
      simp only [decide_eq_false_iff_not, not_le, decide_eq_true_eq] at *
      exact hab.le) (fun a b c h1 h2 => by
      simp only [decide_eq_true_eq] at *
      exact h1.trans h2) l
    exact this.imp fun h => by simpa using h
  have e : sortBy (fun (a b : ℚ) => decide (a ≤ b)) (l.map fun x => |x|) =
      sortBy (fun (a b : ℚ) => decide (a ≤ b)) (l'.map fun x => |x|) :=
    List.Perm.eq_of_pairwise' (hs _) (hs _)
      (((sortBy_perm _ _).trans (h.map _)).trans (sortBy_perm _ _).symm)
  unfold percentiles
  rw [e]

/-- C148.  For different operations in any two orders of completion: if the analysis ends in one order, it ends in the
other, and leaves the same rows of statistics, entries of the manifest and files with the same contents, which may come
in another order; each row has its own operation and chip; all totals, means and percentiles are the same (exact
arithmetic). -/
theorem C148 (fp : FP) (o : Options) (s : Setting) (jobs jobs' : List Job) (hu : (jobs.map (·.uid)).Nodup)
    (hp : jobs.Perm jobs') (a : Analysis) (h : analyzeJobs fp o s jobs = .ok a) :
    ∃ a', analyzeJobs fp o s jobs' = .ok a' ∧ a.points.Perm a'.points ∧ a.manifest.Perm a'.manifest ∧
      a.files.Perm a'.files ∧ (a.points.map (·.1)).Nodup ∧
      Analyze.cycles a.points = Analyze.cycles a'.points ∧ avgLinkUtil a.points = avgLinkUtil a'.points ∧
      weightedLinkUtil a.points = weightedLinkUtil a'.points ∧ weightedDramUtil a.points = weightedDramUtil a'.points ∧
      weightedEthUtil a.points = weightedEthUtil a'.points ∧ avgError a.points = avgError a'.points ∧
      ∀ error : Datapoint → ℚ, percentiles (a.points.map fun e => error e.2) =
        percentiles (a'.points.map fun e => error e.2) := by
  unfold analyzeJobs at h ⊢
  obtain ⟨rs, hrs, h⟩ := bind_eq_ok.mp h
  obtain rfl := Out.ok.inj h
  obtain ⟨rs', hrs', hpr⟩ := mapM_perm hp hrs
  have hsep := work_separate hu hrs
  obtain ⟨h1, _, h3, h4, h5, h6⟩ := C84_order hsep (hpr.map (·.1))
  refine ⟨_, by rw [hrs']; exact Out.bind_ok _ _, h1, ?_, (hpr.map _).flatten, (C84_collect hsep).2, h3, h4, ?_,
    ?_, ?_, h6, fun error => percentiles_perm (h1.map _)⟩
  · show (if o.emit then _ else _ : List Entry).Perm (if o.emit then _ else _)
    split
    · exact (hpr.map _).filterMap _
    · exact .refl _
  · exact h5 (·.avgLinkUtil)
  · exact h5 (·.dramUtil)
  · exact h5 (·.aggregateEth)

/-- The operations that the script finds in a directory are different ones. -/
theorem C148_directory (names : List (List Char)) (jobs : List Job)
    (hj : (jobs.map fun j => (j.uid, j.opName)).Perm ((groupTtnn names).map fun e => (e.1, e.2.opName))) :
    (jobs.map (·.uid)).Nodup := by
  have hp : (jobs.map (·.uid)).Perm ((groupTtnn names).map (·.1)) := by
    have := hj.map Prod.fst
    rw [List.map_map, List.map_map] at this
    exact this
  exact hp.nodup_iff.mpr (grouped names).keys

/-! ### The table -/

/-- What a row of the table says about the length of its operation. -/
def lengthColumns (t : Table) : List (Nat × Dbl) := t.rows.map fun r => (r.1.result.goldenCycles, r.2)

/-- The same figures below the table. -/
def SameFigures (t t' : Table) : Prop := t.avgLink = t'.avgLink ∧ t.link = t'.link ∧ t.dram = t'.dram ∧ t.eth = t'.eth

theorem sorted_unique {l l' : List Datapoint} (hp : l.Perm l')
    (h : l.Pairwise fun a b => b.result.goldenCycles ≤ a.result.goldenCycles)
    (h' : l'.Pairwise fun a b => b.result.goldenCycles ≤ a.result.goldenCycles) :
    l.map (·.result.goldenCycles) = l'.map (·.result.goldenCycles) := by
  refine List.Perm.eq_of_pairwise (le := fun a b : Nat => b ≤ a) (fun a b _ _ h1 h2 => Nat.le_antisymm h2 h1) ?_ ?_ (hp.map _)
  · exact List.pairwise_map.mpr h
  · exact List.pairwise_map.mpr h'

theorem figures_perm {ds ds' : Datapoints} (hp : ds.Perm ds') :
    Analyze.cycles ds = Analyze.cycles ds' ∧ avgLinkUtil ds = avgLinkUtil ds' ∧ weightedLinkUtil ds = weightedLinkUtil ds' ∧
      weightedDramUtil ds = weightedDramUtil ds' ∧ weightedEthUtil ds = weightedEthUtil ds' := by
  have hc : Analyze.cycles ds = Analyze.cycles ds' := (hp.map _).sum_eq
  have hw : ∀ f, weighted f ds = weighted f ds' := by
    intro f
    unfold weighted
    rw [total_perm (hp.map _), hc]
  refine ⟨hc, ?_, hw _, hw _, hw _⟩
  unfold avgLinkUtil
  rw [total_perm (hp.map _), hp.length_eq]

/-- C148, the table (missing: the order of rows of the same length), for any rounding as good as that of Python and
counts up to 2^52.  The printed table is the same in
any order of the rows of statistics, apart from which of several operations of the same length comes first: the script
fails for all orders or none, the figures are the same, and so are the columns with the lengths and shares; if no two
rows have the same length, the whole table is the same. -/
theorem C148_table_partial (fp : FP) (hd : fp.Double) (ds ds' : Datapoints) (hp : ds.Perm ds')
    (hg : ∀ e ∈ ds, e.2.result.goldenCycles ≤ 4503599627370496) (maxDisplay : Nat) :
    (summaryTable fp ds maxDisplay = .std .pyZeroDivision ∧ summaryTable fp ds' maxDisplay = .std .pyZeroDivision) ∨
    ∃ t t', summaryTable fp ds maxDisplay = .ok t ∧ summaryTable fp ds' maxDisplay = .ok t' ∧ SameFigures t t' ∧
      lengthColumns t = lengthColumns t' ∧ ((ds.map fun e => e.2.result.goldenCycles).Nodup → t = t') := by
  by_cases hz : ds = [] ∨ ∃ e ∈ ds, e.2.result.goldenCycles = 0
  · refine .inl ⟨C85_violated fp ds maxDisplay hz, C85_violated fp ds' maxDisplay ?_⟩
    rcases hz with rfl | ⟨e, he, hz⟩
    · exact .inl hp.nil_eq.symm
    · exact .inr ⟨e, hp.subset he, hz⟩
  · rw [not_or] at hz
    obtain ⟨hne, hz⟩ := hz
    have hz : ∀ e ∈ ds, e.2.result.goldenCycles ≠ 0 := fun e he h0 => hz ⟨e, he, h0⟩
    obtain ⟨t, ht⟩ := C85_partial fp ds maxDisplay hne hz
    obtain ⟨t', ht'⟩ := C85_partial fp ds' maxDisplay (fun h => hne (by rw [h] at hp; exact hp.eq_nil))
      (fun e he => hz e (hp.symm.subset he))
    refine .inr ⟨t, t', ht, ht', ?_⟩
    obtain ⟨f1, f2, f3, f4, f5⟩ := figures_perm hp
    have hc : Analyze.cycles ds ≠ 0 := by
      obtain ⟨e, l, rfl⟩ := List.exists_cons_of_ne_nil hne
      unfold Analyze.cycles
      have := hz e List.mem_cons_self
      simp only [List.map_cons, List.sum_cons]
      omega
    unfold summaryTable at ht ht'
    obtain ⟨evs, e1, ht⟩ := bind_eq_ok.mp ht
    obtain ⟨rows, e2, ht⟩ := bind_eq_ok.mp ht
    obtain ⟨a, e3, ht⟩ := bind_eq_ok.mp ht
    obtain ⟨b, e4, ht⟩ := bind_eq_ok.mp ht
    obtain ⟨c, e5, ht⟩ := bind_eq_ok.mp ht
    obtain ⟨d, e6, ht⟩ := bind_eq_ok.mp ht
    obtain rfl := Out.ok.inj ht
    obtain ⟨evs', e1', ht'⟩ := bind_eq_ok.mp ht'
    obtain ⟨rows', e2', ht'⟩ := bind_eq_ok.mp ht'
    rw [← f2, e3, bind_ok, ← f3, e4, bind_ok, ← f4, e5, bind_ok, ← f5, e6, bind_ok] at ht'
    obtain rfl := Out.ok.inj ht'
    obtain ⟨p1, s1⟩ := C83_sorted_rounded hd e1 hg
    obtain ⟨p2, s2⟩ := C83_sorted_rounded hd e1' (fun e he => hg e (hp.symm.subset he))
    have hpe : evs.Perm evs' := (p1.trans (hp.map _)).trans p2.symm
    have hlen := sorted_unique hpe s1 s2
    rw [tableRows_ok ds hc] at e2
    rw [tableRows_ok ds' (f1 ▸ hc), ← f1] at e2'
    have e2 := Out.ok.inj e2
    have e2' := Out.ok.inj e2'
    refine ⟨⟨rfl, rfl, rfl, rfl⟩, ?_, ?_⟩
    · unfold lengthColumns
      simp only
      rw [← e2, ← e2', List.map_map, List.map_map]
      have := congrArg (fun l => (l.take maxDisplay).map fun n : Nat =>
        (n, Dbl.num (100 * ((n : ℚ) / Analyze.cycles ds)))) hlen
      simp only [← List.map_take, List.map_map] at this
      exact this
    · intro hn
      have hn' : (evs.map (·.result.goldenCycles)).Nodup := by
        rw [(p1.map _).nodup_iff, List.map_map]
        exact hn
      have : evs = evs' := by
        refine List.Perm.eq_of_pairwise (le := fun a b : Datapoint => b.result.goldenCycles ≤ a.result.goldenCycles)
          ?_ s1 s2 hpe
        intro x y hx hy h1 h2
        exact List.inj_on_of_nodup_map hn' hx (hpe.symm.subset hy) (Nat.le_antisymm h2 h1)
      rw [← e2, ← e2', this]

/-- Two operations of 50 cycles each, with link utilizations of 10 and 20 percent. -/
def tied : List WorkerResult :=
  [some ("A".toList, ⟨1, none⟩, [(0, { goldenCycles := 50, avgLinkUtil := .num 10 }), (-1, {})]),
   some ("B".toList, ⟨2, none⟩, [(0, { goldenCycles := 50, avgLinkUtil := .num 20 }), (-1, {})])]

/-- The names that a table shows. -/
def shownNames : Out Table → List (List Char)
  | .ok t => t.rows.map (·.1.opName)
  | _ => []

/-- One expects the same table for the same results. -/
def C148_claim : Prop := ∀ (rs rs' : List WorkerResult) (maxDisplay : Nat), Separate rs → rs.Perm rs' →
  summaryTable .exact (collect rs) maxDisplay = summaryTable .exact (collect rs') maxDisplay

/-- Violated: of two operations of the same length, a table of one row shows the one that was finished first. -/
theorem C148_violated : ¬ C148_claim := by
  intro h
  have hs : Separate tied := by
    constructor
    · refine .cons ?_ (.cons (fun _ h => absurd h List.not_mem_nil) .nil)
      intro b hb x y hx hy
      rw [List.mem_singleton.mp hb] at hy
      rw [← Option.some.inj hx, ← Option.some.inj hy]
      decide
    · intro x hx
      rcases List.mem_cons.mp hx with hx | hx
      · rw [Option.some.inj hx]; decide
      · rw [Option.some.inj (List.mem_singleton.mp hx)]; decide
  have := congrArg shownNames (h tied tied.reverse 1 hs (List.reverse_perm _).symm)
  exact absurd this (by decide +kernel)

/-- Lengths, shares and the two link utilizations of a table. -/
def shownFigures : Out Table → List ((Nat × Dbl) × Dbl × Dbl)
  | .ok t => (lengthColumns t).map fun r => (r, t.avgLink, t.link)
  | _ => []

/-- The tables differ in their only row and agree in length, share and figures. -/
example : shownNames (summaryTable .exact (collect tied) 1) = ["A".toList] ∧
    shownNames (summaryTable .exact (collect tied.reverse) 1) = ["B".toList] ∧
    shownFigures (summaryTable .exact (collect tied) 1) = [((50, .num 50), .num 15, .num 15)] ∧
    shownFigures (summaryTable .exact (collect tied.reverse) 1) = [((50, .num 50), .num 15, .num 15)] := by
  decide +kernel

/-- The jobs of a directory, of which the second one fails, in the reverse order. -/
example : ∃ a a', analyzeJobs .exact { emit := true } (toDir "out") twoJobs = .ok a ∧
    analyzeJobs .exact { emit := true } (toDir "out") twoJobs.reverse = .ok a' ∧
    a.manifest = [⟨2048, "Op_ID2_traceID5.npeviz".toList⟩, ⟨2048, "Op_ID2_traceID6.npeviz".toList⟩] ∧
    a.files.Perm a'.files ∧ a.points.Perm a'.points ∧ a.manifest.Perm a'.manifest := by
  obtain ⟨a, ha, hm⟩ := two_manifest
  obtain ⟨a', ha', h1, h2, h3, _⟩ := C148 .exact { emit := true } (toDir "out") twoJobs twoJobs.reverse
    (by decide +kernel) (List.reverse_perm _).symm a ha
  exact ⟨a, a', ha, ha', hm, h3, h1, h2⟩

end NPE.Props
