import Verif.Model.GenerateSummary
import Verif.Spec.GenerateSummary
import Verif.Props.Generate

/-
C141: the figures of generated sample data for each NoC and for the whole run.
-/

namespace NPE.Props
open NPE.Generate NPE.Spec.Generate

theorem typeOnNoc_eq (noc : Noc) (ty : LinkType) : typeOnNoc noc ty = decide (noc = (match ty with
    | .noc0East | .noc0South => Noc.noc0
    | .noc1North | .noc1West => Noc.noc1)) := by
  cases noc <;> cases ty <;> decide +kernel

theorem onNoc_iff (noc : Noc) (l : LinkAttr) : onNoc noc l = true ↔ Belongs noc l := by
  obtain ⟨p, ty⟩ := l
  unfold onNoc
  rw [typeOnNoc_eq]
  cases noc <;> cases ty <;> simp [Belongs]

theorem foldl_if_sum (p : LinkAttr → Bool) (f : ℚ → ℚ) : ∀ (d : List (LinkAttr × ℚ)) (a : ℚ),
    d.foldl (fun a e => if p e.1 then a + f e.2 else a) a = a + ((d.filter fun e => p e.1).map fun e => f e.2).sum := by
  intro d
  induction d with
  | nil => simp
  | cons e d ih =>
    intro a
    rw [List.foldl_cons, ih]
    by_cases h : p e.1 <;> simp [h]; ring

theorem lookup_filter (p : LinkAttr → Bool) (l : LinkAttr) (hp : p l = true) : ∀ (d : List (LinkAttr × ℚ)),
    (d.filter fun e => p e.1).lookup l = d.lookup l := by
  intro d
  induction d with
  | nil => rfl
  | cons e d ih =>
    by_cases h : l = e.1
    · subst h
      simp [hp, List.lookup]
    · have h' : (l == e.1) = false := by simpa using h
      by_cases hq : p e.1
      · rw [List.filter_cons_of_pos (by simpa using hq)]
        simp [List.lookup, h', ih]
      · rw [List.filter_cons_of_neg (by simpa using hq), ih]
        simp [List.lookup, h']

theorem nocLinks_eq (devices rows cols : Nat) (noc : Noc) :
    nocLinks devices rows cols noc = (allLinks devices rows cols).filter (onNoc noc) := by
  unfold nocLinks
  apply List.filter_congr
  intro l _
  by_cases h : onNoc noc l = true
  · simp [h, (onNoc_iff noc l).mp h]
  · have : ¬ Belongs noc l := fun hb => h ((onNoc_iff noc l).mpr hb)
    simp [h, this]

theorem nocLinks_length (devices rows cols : Nat) (noc : Noc) :
    (nocLinks devices rows cols noc).length = devices * (rows * (cols * 2)) := by
  rw [nocLinks_eq]
  unfold allLinks
  simp only [List.filter_flatMap, List.length_flatMap]
  have : ∀ d r c : Nat, (([LinkType.noc0East, .noc0South, .noc1North, .noc1West].map fun ty =>
      (⟨⟨d, r, c⟩, ty⟩ : LinkAttr)).filter (onNoc noc)).length = 2 := by
    intro d r c
    cases noc <;> simp [onNoc, typeOnNoc_eq]
  simp only [this, List.map_const', List.sum_replicate, List.length_range]
  simp

/-- A sum over the links of one NoC in a timestep. -/
theorem noc_sum (devices rows cols : Nat) (c t : Int) (ts : List Generate.Transfer)
    (hl : ∀ x ∈ ts, ∀ s ∈ x.route, ∀ l ∈ s.links, l ∈ allLinks devices rows cols) (hc : 0 < c) (ht : Timed ts)
    (noc : Noc) (f : ℚ → ℚ) (hf : f 0 = 0) :
    (linkDemand c t ts).foldl (fun a e => if onNoc noc e.1 then a + f e.2 else a) 0 =
      ((nocLinks devices rows cols noc).map fun l => f (demandOn perLink c t ts l)).sum := by
  have hs : ∀ e ∈ linkDemand c t ts, e.1 ∈ allLinks devices rows cols := by
    intro e he
    have : ((linkDemand c t ts).lookup e.1).isSome := by
      rw [List.lookup_isSome_iff]
      exact ⟨e, he, by simp⟩
    obtain ⟨x, hx, s, hs, h, _⟩ := (C96_demand c t hc ts ht e.1).2.1.mp this
    exact hl x hx s hs _ h
  rw [foldl_if_sum, zero_add, nocLinks_eq,
    sum_dict ((allLinks_nodup devices rows cols).filter (onNoc noc)) f hf _
      ((linkDemand_nodup c t ts).sublist (List.filter_sublist.map _)) (by
        intro e he
        rw [List.mem_filter] at he ⊢
        exact ⟨hs e he.1, he.2⟩)]
  congr 1
  apply List.map_congr_left
  intro l h
  rw [lookup_filter _ _ (List.mem_filter.mp h).2, (C96_demand c t hc ts ht l).1]

/-- C141, for each timestep and NoC: up to rounding, the figures of a NoC are the means over its links, in the same scale
as the figures for both NoCs (`C97_averages`): times the number of devices and divided by two. -/
theorem C141_noc (devices rows cols : Nat) (hd : 0 < devices) (hr : 0 < rows) (hk : 0 < cols) (c t : Int)
    (ts : List Generate.Transfer)
    (hl : ∀ x ∈ ts, ∀ s ∈ x.route, ∀ l ∈ s.links, l ∈ allLinks devices rows cols) (hc : 0 < c) (ht : Timed ts)
    (rnd : ℚ → ℚ) (h : ℚ) (hrnd : Within rnd h) (noc : Noc) :
    let g := figures rnd rows cols c t ts
    let p := match noc with
      | .noc0 => g.noc0
      | .noc1 => g.noc1
    let pct := fun l => 100 * (demandOn perLink c t ts l / maxLinkBw)
    |p.demand - devices / 2 * mean ((nocLinks devices rows cols noc).map pct)| ≤ h ∧
    |p.util - devices / 2 * mean ((nocLinks devices rows cols noc).map fun l => min 100 (pct l))| ≤ h := by
  intro g p pct
  have hdq : (0 : ℚ) < devices := by exact_mod_cast hd
  have hrq : (0 : ℚ) < rows := by exact_mod_cast hr
  have hkq : (0 : ℚ) < cols := by exact_mod_cast hk
  have hlen : ((nocLinks devices rows cols noc).length : ℚ) = devices * (rows * (cols * 2)) := by
    rw [nocLinks_length]; push_cast; ring
  have hp : ∀ l, pctDemand (demandOn perLink c t ts l) = pct l := by
    intro l
    simp only [pctDemand, pct]; ring
  have h1 : nocDemandSum noc (linkDemand c t ts) / numLinksPerNoc rows cols =
      devices / 2 * mean ((nocLinks devices rows cols noc).map pct) := by
    unfold nocDemandSum mean numLinksPerNoc
    rw [noc_sum devices rows cols c t ts hl hc ht noc pctDemand (by simp [pctDemand]), List.length_map, hlen]
    simp only [hp]
    field_simp
    norm_num
  have h2 : nocUtilSum noc (linkDemand c t ts) / numLinksPerNoc rows cols =
      devices / 2 * mean ((nocLinks devices rows cols noc).map fun l => min 100 (pct l)) := by
    unfold nocUtilSum mean numLinksPerNoc
    rw [noc_sum devices rows cols c t ts hl hc ht noc (fun q => min 100 (pctDemand q)) (by simp [pctDemand]),
      List.length_map, hlen]
    simp only [hp]
    field_simp
    norm_num
  rw [← h1, ← h2]
  cases noc
  · exact ⟨hrnd _, hrnd _⟩
  · exact ⟨hrnd _, hrnd _⟩

theorem split_sum (f : ℚ → ℚ) : ∀ (d : List (LinkAttr × ℚ)),
    ((d.filter fun e => onNoc .noc0 e.1).map fun e => f e.2).sum +
      ((d.filter fun e => onNoc .noc1 e.1).map fun e => f e.2).sum = (d.map fun e => f e.2).sum := by
  intro d
  induction d with
  | nil => simp
  | cons e d ih =>
    obtain ⟨⟨p, ty⟩, q⟩ := e
    have h0 : ∀ noc, onNoc noc ⟨p, ty⟩ = typeOnNoc noc ty := fun _ => rfl
    cases ty <;> simp [List.filter_cons, h0, typeOnNoc_eq] <;> rw [← ih] <;> ring

theorem sum_scale (k : ℚ) (f : LinkAttr × ℚ → ℚ) (d : List (LinkAttr × ℚ)) :
    (d.map fun e => k * f e).sum = k * (d.map f).sum := by
  induction d with
  | nil => simp
  | cons e d ih => simp only [List.map_cons, List.sum_cons, ih]; ring

theorem min_pct (q : ℚ) : min 100 (pctDemand q) = 100 / maxLinkBw * min maxLinkBw q := by
  have hw : (0 : ℚ) < maxLinkBw := by norm_num [maxLinkBw]
  rw [mul_min_of_nonneg _ _ (by positivity), pctDemand]
  congr 1
  field_simp

/-- C141, for each timestep: up to rounding, the figures for both NoCs together lie in the middle between those of the two
NoCs. -/
theorem C141_middle (rows cols : Nat) (c t : Int) (ts : List Generate.Transfer) (rnd : ℚ → ℚ) (h : ℚ) (hrnd : Within rnd h) :
    let g := figures rnd rows cols c t ts
    |g.all.demand - (g.noc0.demand + g.noc1.demand) / 2| ≤ 2 * h ∧
    |g.all.util - (g.noc0.util + g.noc1.util) / 2| ≤ 2 * h := by
  intro g
  have e1 : avgDemand rows cols c t ts =
      (nocDemandSum .noc0 (linkDemand c t ts) / numLinksPerNoc rows cols +
        nocDemandSum .noc1 (linkDemand c t ts) / numLinksPerNoc rows cols) / 2 := by
    unfold nocDemandSum avgDemand
    rw [foldl_if_sum, foldl_if_sum, zero_add, zero_add, ← add_div, split_sum]
    simp only [pctDemand]
    rw [sum_scale, numLinks, numLinksPerNoc, div_div, mul_comm (2 : ℚ), mul_comm (100 / maxLinkBw)]
  have e2 : avgUtil rows cols c t ts =
      (nocUtilSum .noc0 (linkDemand c t ts) / numLinksPerNoc rows cols +
        nocUtilSum .noc1 (linkDemand c t ts) / numLinksPerNoc rows cols) / 2 := by
    unfold nocUtilSum avgUtil
    rw [foldl_if_sum _ (fun q => min 100 (pctDemand q)), foldl_if_sum _ (fun q => min 100 (pctDemand q)), zero_add,
      zero_add, ← add_div, split_sum (fun q => min 100 (pctDemand q))]
    simp only [min_pct]
    rw [sum_scale, numLinks, numLinksPerNoc, div_div, mul_comm (2 : ℚ), mul_comm (100 / maxLinkBw)]
  constructor
  · have a := hrnd (avgDemand rows cols c t ts)
    have b := hrnd (nocDemandSum .noc0 (linkDemand c t ts) / numLinksPerNoc rows cols)
    have d := hrnd (nocDemandSum .noc1 (linkDemand c t ts) / numLinksPerNoc rows cols)
    rw [abs_le] at a b d ⊢
    simp only [g, figures]
    constructor <;> linarith
  · have a := hrnd (avgUtil rows cols c t ts)
    have b := hrnd (nocUtilSum .noc0 (linkDemand c t ts) / numLinksPerNoc rows cols)
    have d := hrnd (nocUtilSum .noc1 (linkDemand c t ts) / numLinksPerNoc rows cols)
    rw [abs_le] at a b d ⊢
    simp only [g, figures]
    constructor <;> linarith

theorem foldl_add (f : Figures → ℚ) : ∀ (l : List Figures) (a : ℚ),
    l.foldl (fun a t => a + f t) a = a + (l.map f).sum := by
  intro l
  induction l with
  | nil => simp
  | cons t l ih => intro a; rw [List.foldl_cons, ih, List.map_cons, List.sum_cons]; ring

/-- C141, for the run: up to rounding, the overall figures are the means of the figures of the timesteps. -/
theorem C141_overall (rnd : ℚ → ℚ) (h : ℚ) (hrnd : Within rnd h) (l : List Figures) :
    let g := summaryInfo rnd l
    |g.linkDemand - mean (l.map (·.all.demand))| ≤ h ∧ |g.linkUtil - mean (l.map (·.all.util))| ≤ h ∧
    |g.noc0.demand - mean (l.map (·.noc0.demand))| ≤ h ∧ |g.noc0.util - mean (l.map (·.noc0.util))| ≤ h ∧
    |g.noc1.demand - mean (l.map (·.noc1.demand))| ≤ h ∧ |g.noc1.util - mean (l.map (·.noc1.util))| ≤ h := by
  have key : ∀ f : Figures → ℚ, |overallAvg rnd f l - mean (l.map f)| ≤ h := by
    intro f
    have := hrnd (l.foldl (fun a t => a + f t) 0 / l.length)
    unfold overallAvg
    rw [foldl_add, zero_add] at *
    unfold mean
    rw [List.length_map]
    exact this
  exact ⟨key _, key _, key _, key _, key _, key _⟩

theorem mean_near (h : ℚ) (f g : Figures → ℚ) (l : List Figures) (hl : l ≠ []) (hfg : ∀ t ∈ l, |f t - g t| ≤ h) :
    |mean (l.map f) - mean (l.map g)| ≤ h := by
  have key : ∀ l : List Figures, (∀ t ∈ l, |f t - g t| ≤ h) → |(l.map f).sum - (l.map g).sum| ≤ l.length * h := by
    intro l
    induction l with
    | nil => simp
    | cons t l ih =>
      intro hfg
      have a := hfg t List.mem_cons_self
      have b := ih (fun x hx => hfg x (List.mem_cons_of_mem _ hx))
      rw [abs_le] at *
      simp only [List.map_cons, List.sum_cons, List.length_cons]
      push_cast
      constructor <;> linarith
  have hn : (0 : ℚ) < l.length := by exact_mod_cast List.length_pos_iff.mpr hl
  unfold mean
  rw [List.length_map, List.length_map, ← sub_div, abs_div, abs_of_pos hn, div_le_iff₀ hn, mul_comm]
  exact key l hfg

/-- C141, for the run: up to rounding, the overall figures of generated data for both NoCs together lie in the middle
between those of the two NoCs. -/
theorem C141_overall_middle (rows cols : Nat) (c : Int) (x : Generate.Transfer) (xs : List Generate.Transfer) (rnd : ℚ → ℚ) (h : ℚ)
    (hrnd : Within rnd h) (hn : 0 < numTimesteps c x xs) :
    let g := summaryInfo rnd (timestepData rnd rows cols c x xs)
    |g.linkDemand - (g.noc0.demand + g.noc1.demand) / 2| ≤ 4 * h ∧
    |g.linkUtil - (g.noc0.util + g.noc1.util) / 2| ≤ 4 * h := by
  intro g
  have hl : timestepData rnd rows cols c x xs ≠ [] := by
    intro he
    have := congrArg List.length he
    simp only [timestepData, List.length_map, List.length_range, List.length_nil] at this
    omega
  have hm : ∀ t ∈ timestepData rnd rows cols c x xs, |t.all.demand - (t.noc0.demand + t.noc1.demand) / 2| ≤ 2 * h ∧
      |t.all.util - (t.noc0.util + t.noc1.util) / 2| ≤ 2 * h := by
    intro t ht
    obtain ⟨n, _, rfl⟩ := List.mem_map.mp ht
    exact C141_middle rows cols c n (x :: xs) rnd h hrnd
  obtain ⟨a1, a2, a3, a4, a5, a6⟩ := C141_overall rnd h hrnd (timestepData rnd rows cols c x xs)
  have half : ∀ f f' : Figures → ℚ, mean ((timestepData rnd rows cols c x xs).map fun t => (f t + f' t) / 2) =
      (mean ((timestepData rnd rows cols c x xs).map f) + mean ((timestepData rnd rows cols c x xs).map f')) / 2 := by
    intro f f'
    have : ∀ l : List Figures, (l.map fun t => (f t + f' t) / 2).sum = ((l.map f).sum + (l.map f').sum) / 2 := by
      intro l
      induction l with
      | nil => simp
      | cons t l ih => simp only [List.map_cons, List.sum_cons, ih]; ring
    unfold mean
    rw [this]
    simp only [List.length_map]
    ring
  have b1 := mean_near (2 * h) _ _ _ hl fun t ht => (hm t ht).1
  have b2 := mean_near (2 * h) _ _ _ hl fun t ht => (hm t ht).2
  rw [half (·.noc0.demand) (·.noc1.demand)] at b1
  rw [half (·.noc0.util) (·.noc1.util)] at b2
  rw [abs_le] at a1 a2 a3 a4 a5 a6 b1 b2
  constructor <;> rw [abs_le] <;> constructor <;> linarith

theorem overallMax_le (f : Figures → ℚ) (b : ℚ) (hb : 0 ≤ b) (l : List Figures) (hl : ∀ t ∈ l, f t ≤ b) :
    overallMax f l ≤ b := by
  have key : ∀ (l : List Figures) (a : ℚ), a ≤ b → (∀ t ∈ l, f t ≤ b) → l.foldl (fun a t => max a (f t)) a ≤ b := by
    intro l
    induction l with
    | nil => intro a ha _; exact ha
    | cons t l ih =>
      intro a ha hl
      rw [List.foldl_cons]
      exact ih _ (max_le ha (hl t List.mem_cons_self)) fun x hx => hl x (List.mem_cons_of_mem _ hx)
  exact key l 0 hb hl

/-- C141, what holds of the figure for the maximum: up to rounding it is at most half the number of devices times any
bound of the demand on the links. -/
theorem C141_partial (devices rows cols : Nat) (hd : 0 < devices) (hr : 0 < rows) (hk : 0 < cols) (c : Int) (hc : 0 < c)
    (x : Generate.Transfer) (xs : List Generate.Transfer)
    (hl : ∀ y ∈ x :: xs, ∀ s ∈ y.route, ∀ l ∈ s.links, l ∈ allLinks devices rows cols) (ht : Timed (x :: xs))
    (rnd : ℚ → ℚ) (h : ℚ) (hrnd : Within rnd h) (b : ℚ) (hb : 0 ≤ b)
    (hall : ∀ (t : Int), ∀ l ∈ allLinks devices rows cols, 100 * (demandOn perLink c t (x :: xs) l / maxLinkBw) ≤ b) :
    (summaryInfo rnd (timestepData rnd rows cols c x xs)).maxLinkDemand ≤ devices / 2 * b + h := by
  have hh : 0 ≤ h := le_trans (abs_nonneg _) (hrnd 0)
  have hdq : (0 : ℚ) < devices := by exact_mod_cast hd
  apply overallMax_le _ _ (by positivity)
  intro g hg
  obtain ⟨t, _, rfl⟩ := List.mem_map.mp hg
  have e := (C97_averages devices rows cols hd hr hk c t (x :: xs) hl hc ht).1
  have hm : meanOver devices rows cols (fun l => 100 * (demandOn perLink c t (x :: xs) l / maxLinkBw)) ≤ b := by
    unfold meanOver
    have hlen : (0 : ℚ) < (allLinks devices rows cols).length := by
      rw [allLinks_length]
      exact_mod_cast (by positivity : 0 < devices * (rows * (cols * 4)))
    rw [div_le_iff₀ hlen]
    have key : ∀ (A : List LinkAttr) (f : LinkAttr → ℚ), (∀ l ∈ A, f l ≤ b) → (A.map f).sum ≤ b * A.length := by
      intro A f
      induction A with
      | nil => simp
      | cons a A ih =>
        intro hA
        have := ih fun l hl => hA l (List.mem_cons_of_mem _ hl)
        have := hA a List.mem_cons_self
        simp only [List.map_cons, List.sum_cons, List.length_cons]
        push_cast
        linarith
    exact key _ _ (hall t)
  have a := (abs_le.mp (hrnd (avgDemand rows cols c t (x :: xs)))).2
  have : devices * meanOver devices rows cols (fun l => 100 * (demandOn perLink c t (x :: xs) l / maxLinkBw)) ≤
      devices * b := mul_le_mul_of_nonneg_left hm hdq.le
  show rnd (avgDemand rows cols c t (x :: xs)) ≤ _
  linarith

open Classical in
/-- C141 does not hold: `max_link_demand` is the largest average of a timestep, not the largest demand on a link. Whatever
the grid, a transfer over a single link demands at least eight times as much of it as the figure says (without rounding). -/
theorem C141_violated (rows cols : Nat) (hr : 0 < rows) (hk : 0 < cols) (c : Int) (hc : 0 < c) (x : Generate.Transfer)
    (s : Generate.Segment) (hx : x.route = [s]) (hb : 0 < x.bytes) (h0 : 0 ≤ s.start) (hs : s.start < s.stop)
    (l : LinkAttr) (hl : s.links = [l]) :
    ∃ t : Int, (0 ≤ t ∧ t < numTimesteps c x []) ∧ 0 < demandOn perLink c t [x] l ∧
      8 * (summaryInfo id (timestepData id rows cols c x [])).maxLinkDemand ≤
        100 * (demandOn perLink c t [x] l / maxLinkBw) := by
  have ht : Timed [x] := by
    intro y hy r hr
    rw [List.mem_singleton.mp hy, hx] at hr
    rw [List.mem_singleton.mp hr]; exact hs
  have hd : (0 : ℚ) < ((s.stop - s.start + 1 : Int) : ℚ) := by exact_mod_cast (by omega : 0 < s.stop - s.start + 1)
  have hq : (0 : ℚ) < x.bytes := by exact_mod_cast hb
  have hpos : 0 < perLink x s := by unfold perLink; positivity
  have hw : (0 : ℚ) < maxLinkBw := by norm_num [maxLinkBw]
  have hrq : (1 : ℚ) ≤ rows := by exact_mod_cast hr
  have hkq : (1 : ℚ) ≤ cols := by exact_mod_cast hk
  have hrk : (1 : ℚ) ≤ rows * cols := one_le_mul_of_one_le_of_one_le hrq hkq
  have hm : Meets s.start s.stop c (s.start / c) := by
    refine ⟨s.start, ⟨le_rfl, hs⟩, Int.ediv_mul_le _ hc.ne', ?_⟩
    have := Int.lt_ediv_add_one_mul_self s.start hc
    exact this
  have hon : ∀ t, demandOn perLink c t [x] l = if Meets s.start s.stop c t then perLink x s else 0 := by
    intro t
    simp [demandOn, hx, hl]
  have hcov := C96_cover c hc x [] x List.mem_cons_self s (by simp [hx])
  refine ⟨s.start / c, ⟨Int.ediv_nonneg h0 hc.le, ?_⟩, ?_, ?_⟩
  · rw [Int.ediv_lt_iff_lt_mul hc]; omega
  · rw [hon, if_pos hm]; exact hpos
  · rw [hon, if_pos hm]
    have hle : (summaryInfo id (timestepData id rows cols c x [])).maxLinkDemand ≤
        100 * (perLink x s / maxLinkBw) / 8 := by
      apply overallMax_le _ _ (by positivity)
      intro g hg
      obtain ⟨t, _, rfl⟩ := List.mem_map.mp hg
      show avgDemand rows cols c t [x] ≤ _
      have hin : ∀ e ∈ linkDemand c t [x], e.1 ∈ [l] := by
        intro e he
        have : ((linkDemand c t [x]).lookup e.1).isSome := by
          rw [List.lookup_isSome_iff]
          exact ⟨e, he, by simp⟩
        obtain ⟨y, hy, r, hr, h, _⟩ := (C96_demand c t hc [x] ht e.1).2.1.mp this
        rw [List.mem_singleton.mp hy, hx] at hr
        rw [List.mem_singleton.mp hr, hl] at h
        exact h
      unfold avgDemand
      rw [sum_dict (List.nodup_singleton l) (fun q => q) rfl _ (linkDemand_nodup c t [x]) hin]
      simp only [List.map_cons, List.map_nil, List.sum_cons, List.sum_nil, add_zero]
      rw [(C96_demand c t hc [x] ht l).1, hon]
      have hle : (if Meets s.start s.stop c t then perLink x s else 0) ≤ perLink x s := by
        split_ifs
        · exact le_rfl
        · exact hpos.le
      have e1 : (if Meets s.start s.stop c t then perLink x s else 0) * (100 / maxLinkBw) / numLinks rows cols ≤
          perLink x s * (100 / maxLinkBw) / numLinks rows cols := by
        have : 0 ≤ numLinks rows cols := by unfold numLinks; positivity
        exact div_le_div_of_nonneg_right (mul_le_mul_of_nonneg_right hle (by positivity)) this
      have e2 : perLink x s * (100 / maxLinkBw) / numLinks rows cols ≤ perLink x s * (100 / maxLinkBw) / 8 := by
        apply div_le_div_of_nonneg_left (by positivity) (by norm_num)
        unfold numLinks; linarith
      calc _ ≤ _ := e1
        _ ≤ _ := e2
        _ = _ := by ring
    linarith

/-! ### Concrete cases -/

/-- To the nearest hundredth, a half up. -/
def hundredth (x : ℚ) : ℚ := ⌊x * 100 + 1 / 2⌋ / 100

example : Within hundredth (1 / 200) := by
  intro x
  have h1 := Int.floor_le (x * 100 + 1 / 2)
  have h2 := Int.lt_floor_add_one (x * 100 + 1 / 2)
  rw [abs_le, hundredth]
  constructor <;> linarith

/-- A third transfer on NoC 1. -/
def sample3 : List Generate.Transfer := sample ++ [⟨2, 8192, 100, [⟨10, 100, [⟨⟨0, 3, 3⟩, .noc1West⟩]⟩]⟩]

example : figures hundredth 2 3 32 1 sample3 =
    ⟨⟨98 / 5, 25 / 4⟩, ⟨1293 / 50, 833 / 100⟩, ⟨267 / 20, 417 / 100⟩⟩ := by decide +kernel

/-- The figure for the maximum is 19.6%, though a link has a demand of more than 442%. -/
example : (sample3.head?.map fun x => summaryInfo hundredth (timestepData hundredth 2 3 32 x sample3.tail)) =
    some ⟨581 / 50, 417 / 100, 98 / 5, ⟨251 / 20, 5⟩, 1293 / 50, ⟨267 / 25, 167 / 50⟩, 267 / 20⟩ ∧
    442 < pctDemand (((linkDemand 32 1 sample3).lookup ⟨⟨0, 1, 2⟩, .noc0South⟩).getD 0) := by decide +kernel

end NPE.Props
