import Verif.Spec.Generate
import Verif.Props.Route

/-
Properties C95 to C98: the generator of sample timelines.
-/

namespace NPE.Props
open NPE.Out NPE.Generate NPE.Spec NPE.Spec.Generate

/-! ### C95: routes -/

theorem walk_up {m : Nat} {e : Int} (he : 0 ≤ e ∧ e < m) : ∀ (n fuel : Nat) (c : Int), 0 ≤ c ∧ c < m →
    (e - c) % m = n → n < fuel →
    walk (nextUp (m - 1)) e fuel c = .ok ((List.range n).map fun (k : Nat) => (c + k) % m) := by
  intro n
  induction n with
  | zero =>
    intro fuel c hc h hf
    obtain ⟨f, rfl⟩ : ∃ f, fuel = f + 1 := ⟨fuel - 1, by omega⟩
    have : c = e := (emod_sub_eq_zero he hc).mp (by simpa using h)
    subst this
    simp [walk]
  | succ n ih =>
    intro fuel c hc h hf
    obtain ⟨f, rfl⟩ : ∃ f, fuel = f + 1 := ⟨fuel - 1, by omega⟩
    have hne : c ≠ e := by rintro rfl; simp at h; omega
    obtain ⟨h1, h2⟩ := emod_up he hc h
    have hn : nextUp (m - 1) c = (c + 1) % m := by
      unfold nextUp
      split_ifs with h0
      · rw [h0]; simp
      · rw [Int.emod_eq_of_lt (by omega) (by omega)]
    rw [walk, if_neg hne, hn, ih f _ h2 h1 (by omega), bind_ok, List.range_succ_eq_map, List.map_cons, List.map_map]
    congr 2
    · simp [Int.emod_eq_of_lt hc.1 hc.2]
    · apply List.map_congr_left; intro k _
      simp only [Function.comp, Int.emod_add_emod]
      congr 1; push_cast; ring

theorem walk_down {m : Nat} {e : Int} (he : 0 ≤ e ∧ e < m) : ∀ (n fuel : Nat) (c : Int), 0 ≤ c ∧ c < m →
    (c - e) % m = n → n < fuel →
    walk (nextDown (m - 1)) e fuel c = .ok ((List.range n).map fun (k : Nat) => (c - k) % m) := by
  intro n
  induction n with
  | zero =>
    intro fuel c hc h hf
    obtain ⟨f, rfl⟩ : ∃ f, fuel = f + 1 := ⟨fuel - 1, by omega⟩
    have : e = c := (emod_sub_eq_zero hc he).mp (by simpa using h)
    subst this
    simp [walk]
  | succ n ih =>
    intro fuel c hc h hf
    obtain ⟨f, rfl⟩ : ∃ f, fuel = f + 1 := ⟨fuel - 1, by omega⟩
    have hne : c ≠ e := by rintro rfl; simp at h; omega
    obtain ⟨h1, h2⟩ := emod_down he hc h
    have hn : nextDown (m - 1) c = (c - 1) % m := by
      unfold nextDown
      split_ifs with h0
      · rw [h0, ← Int.add_emod_right, Int.emod_eq_of_lt (by omega) (by omega)]; omega
      · rw [Int.emod_eq_of_lt (by omega) (by omega)]
    rw [walk, if_neg hne, hn, ih f _ h2 h1 (by omega), bind_ok, List.range_succ_eq_map, List.map_cons, List.map_map]
    congr 2
    · simp [Int.emod_eq_of_lt hc.1 hc.2]
    · apply List.map_congr_left; intro k _
      simp only [Function.comp, Int.emod_sub_emod]
      congr 1; push_cast; ring

theorem walk_never {next : Int → Int} {p : Int → Prop} {e : Int} (hp : ∀ c, p c → p (next c)) (he : ¬ p e) :
    ∀ (f : Nat) (c : Int), p c → walk next e f c = .diverge := by
  intro f
  induction f with
  | zero => intro c _; rfl
  | succ f ih =>
    intro c hc
    rw [walk, if_neg (by rintro rfl; exact he hc), ih _ (hp c hc)]
    rfl

theorem nextUp_range {m : Nat} (c : Int) (h : 0 ≤ c ∧ c < m) : 0 ≤ nextUp (m - 1) c ∧ nextUp (m - 1) c < m := by
  unfold nextUp; split_ifs <;> omega

theorem nextDown_range {m : Nat} (c : Int) (h : 0 ≤ c ∧ c < m) :
    0 ≤ nextDown (m - 1) c ∧ nextDown (m - 1) c < m := by
  unfold nextDown; split_ifs <;> omega

theorem segment_legs (dev : Device) (noc : Noc) (d : Int) (s e : Coord) (hs : dev.OnG s.row s.col)
    (he : dev.OnG e.row e.col) (fuel : Nat) (hf : dev.rows + dev.cols ≤ fuel) :
    routeSegment dev.rows dev.cols fuel d s e noc = .ok (dev.legs d noc s e, ⟨d, e.row, e.col⟩) := by
  have hc : (0 : Int) < dev.cols := by have := hs.2; omega
  have hr : (0 : Int) < dev.rows := by have := hs.1; omega
  unfold routeSegment
  split_ifs with h0
  · rw [← h0.1, ← h0.2]
    congr 2
    cases noc <;> simp [Device.legs, Device.eastLeg, Device.southLeg, Device.northLeg, Device.westLeg, h0.1, h0.2]
  cases noc with
  | noc0 =>
    have h1 := Int.emod_nonneg (e.col - s.col) (show (dev.cols : Int) ≠ 0 by omega)
    have h2 := Int.emod_nonneg (e.row - s.row) (show (dev.rows : Int) ≠ 0 by omega)
    have h3 := Int.emod_lt_of_pos (e.col - s.col) hc
    have h4 := Int.emod_lt_of_pos (e.row - s.row) hr
    simp only
    rw [walk_up he.2 ((e.col - s.col) % dev.cols).toNat fuel _ hs.2 (by omega) (by omega), bind_ok,
      walk_up he.1 ((e.row - s.row) % dev.rows).toNat fuel _ hs.1 (by omega) (by omega), bind_ok,
      List.map_map, List.map_map]
    rfl
  | noc1 =>
    have h1 := Int.emod_nonneg (s.col - e.col) (show (dev.cols : Int) ≠ 0 by omega)
    have h2 := Int.emod_nonneg (s.row - e.row) (show (dev.rows : Int) ≠ 0 by omega)
    have h3 := Int.emod_lt_of_pos (s.col - e.col) hc
    have h4 := Int.emod_lt_of_pos (s.row - e.row) hr
    simp only
    rw [walk_down he.1 ((s.row - e.row) % dev.rows).toNat fuel _ hs.1 (by omega) (by omega), bind_ok,
      walk_down he.2 ((s.col - e.col) % dev.cols).toNat fuel _ hs.2 (by omega) (by omega), bind_ok,
      List.map_map, List.map_map]
    rfl

/-- C95.  Between two cores of the grid the generator finds the shortest path in dimension order and reports that it
has arrived. -/
theorem C95_route (rows cols : Nat) (noc : Noc) (s e : Coord) (hd : e.dev = s.dev) (hs : OnGrid rows cols s)
    (he : OnGrid rows cols e) (fuel : Nat) (hf : rows + cols ≤ fuel) :
    ∃ ls, routeSegment rows cols fuel s.dev s e noc = .ok (ls, e) ∧ IsPath rows cols s ls e ∧ DimOrdered noc ls ∧
      (ls.length : Int) = hops rows cols noc s e := by
  let dev : Device := { wormhole .exact false 1 with rows := rows, cols := cols }
  refine ⟨dev.legs s.dev noc s e, ?_, dev.legs_path _ _ _ _ rfl hd hs he, dev.legs_ordered _ _ _ _,
    dev.legs_length _ _ _ _ hs⟩
  have h := segment_legs dev noc s.dev s e hs he fuel hf
  have e1 : (⟨s.dev, e.row, e.col⟩ : Coord) = e := by rw [← hd]
  rw [e1] at h
  exact h

/-- C95.  The links are those that the route of the simulator's device model stands for. -/
theorem C95_device (dev : Device) (hdev : DeviceOk dev) (ord : List Int → List Int) (noc : Noc) (s e : Coord)
    (hs : IsCore dev s) (he : IsCore dev e) (hse : e.dev = s.dev) (fuel : Nat) (hf : dev.rows + dev.cols ≤ fuel) :
    ∃ ids ls, dev.route ord noc s (.unicast e) = .ok ids ∧ Denotes dev ids ls ∧
      routeSegment dev.rows dev.cols fuel s.dev s e noc = .ok (ls, e) := by
  refine ⟨_, _, dev.route_unicast_eq hdev ord noc s e hs he hse,
    dev.denotes_map _ (dev.legs_on _ _ _ _ hs.1 hs.2 he.2), ?_⟩
  rw [segment_legs dev noc s.dev s e hs.2 he.2 fuel hf]
  rw [← hse]

/-- C95.  If the grid holds rows 0 to 10 and columns 0 to 5, all cores that the generator draws lie on it. -/
theorem C95_drawn_partial (rows cols : Nat) (hr : 11 ≤ rows) (hc : 6 ≤ cols) (d : Int) (p : Int × Int)
    (h : p ∈ workers rows cols ∨ p ∈ drams) : OnGrid rows cols ⟨d, p.1, p.2⟩ := by
  rcases h with h | h
  · simp only [workers, List.mem_filter, decide_eq_true_eq] at h
    obtain ⟨h1, h2, h3⟩ := h
    simp only [List.mem_flatMap, List.mem_map] at h1
    obtain ⟨r, hr', c, hc', rfl⟩ := h1
    have := (by decide : ∀ r ∈ [(1 : Int), 2, 3, 4, 7, 8, 9], 0 ≤ r) r hr'
    have := (by decide : ∀ c ∈ [(1 : Int), 2, 3, 6, 7, 8], 0 ≤ c) c hc'
    exact ⟨⟨by assumption, h2⟩, ⟨by assumption, h3⟩⟩
  · simp only [drams, List.mem_map] at h
    obtain ⟨r, hr', rfl⟩ := h
    have := (by decide : ∀ r ∈ [(1 : Int), 2, 3, 4, 5, 6, 7, 8, 9, 10], 0 ≤ r ∧ r ≤ 10) r hr'
    exact ⟨⟨this.1, by show r < rows; omega⟩, ⟨by show (0 : Int) ≤ 5; omega, by show (5 : Int) < cols; omega⟩⟩

/-- A walk to a core outside of the grid never ends. -/
theorem C95_outside (rows cols : Nat) (noc : Noc) (d : Int) (s e : Coord) (hs : OnGrid rows cols s)
    (he : ¬ OnGrid rows cols e) (fuel : Nat) : routeSegment rows cols fuel d s e noc = .diverge := by
  have hne : ¬ (s.row = e.row ∧ s.col = e.col) := by
    rintro ⟨h1, h2⟩; exact he ⟨h1 ▸ hs.1, h2 ▸ hs.2⟩
  unfold routeSegment
  rw [if_neg hne]
  have hcase : ∀ (m : Nat) (x c : Int), (0 ≤ c ∧ c < m) → ¬ (0 ≤ x ∧ x < m) →
      walk (nextUp (m - 1)) x fuel c = .diverge ∧ walk (nextDown (m - 1)) x fuel c = .diverge := by
    intro m x c hc hx
    exact ⟨walk_never (p := fun y => 0 ≤ y ∧ y < m) nextUp_range hx fuel c hc,
      walk_never (p := fun y => 0 ≤ y ∧ y < m) nextDown_range hx fuel c hc⟩
  have hany : ∀ (next : Int → Int) (x c : Int), (∃ l, walk next x fuel c = .ok l) ∨ walk next x fuel c = .diverge := by
    intro next x
    clear hcase
    induction fuel with
    | zero => intro c; exact .inr rfl
    | succ f ih =>
      intro c
      rw [walk]
      split_ifs with h
      · exact .inl ⟨_, rfl⟩
      · rcases ih (next c) with ⟨l, hl⟩ | hl
        · rw [hl]; exact .inl ⟨_, rfl⟩
        · rw [hl]; exact .inr rfl
  by_cases hc : 0 ≤ e.col ∧ e.col < cols
  · have hr : ¬ (0 ≤ e.row ∧ e.row < rows) := fun h => he ⟨h, hc⟩
    obtain ⟨h1, h2⟩ := hcase rows e.row s.row hs.1 hr
    cases noc with
    | noc0 =>
      simp only
      rcases hany (nextUp (cols - 1)) e.col s.col with ⟨l, hl⟩ | hl
      · rw [hl, bind_ok, h1]; rfl
      · rw [hl]; rfl
    | noc1 => simp only; rw [h2]; rfl
  · obtain ⟨h1, h2⟩ := hcase cols e.col s.col hs.2 hc
    cases noc with
    | noc0 => simp only; rw [h1]; rfl
    | noc1 =>
      simp only
      rcases hany (nextDown (rows - 1)) e.row s.row with ⟨l, hl⟩ | hl
      · rw [hl, bind_ok, h2]; rfl
      · rw [hl]; rfl

/-- C95 does not hold: on every smaller grid with a worker the generator may draw a memory core outside of the grid,
and the walk to it never ends. -/
theorem C95_violated (rows cols : Nat) (h : rows < 11 ∨ cols < 6) (p : Int × Int) (hp : p ∈ workers rows cols)
    (noc : Noc) (d : Int) : ∃ q ∈ drams, ∀ fuel, routeSegment rows cols fuel d ⟨d, p.1, p.2⟩ ⟨d, q.1, q.2⟩ noc = .diverge := by
  refine ⟨(10, 5), by decide, fun fuel => C95_outside rows cols noc d _ _ ?_ ?_ fuel⟩
  · simp only [workers, List.mem_filter, decide_eq_true_eq] at hp
    obtain ⟨h1, h2, h3⟩ := hp
    simp only [List.mem_flatMap, List.mem_map] at h1
    obtain ⟨r, hr', c, hc', rfl⟩ := h1
    have := (by decide : ∀ r ∈ [(1 : Int), 2, 3, 4, 7, 8, 9], 0 ≤ r) r hr'
    have := (by decide : ∀ c ∈ [(1 : Int), 2, 3, 6, 7, 8], 0 ≤ c) c hc'
    exact ⟨⟨by assumption, h2⟩, ⟨by assumption, h3⟩⟩
  · rintro ⟨⟨_, h1⟩, ⟨_, h2⟩⟩
    simp only at h1 h2
    omega

example : routeSegment 12 10 22 3 ⟨3, 9, 8⟩ ⟨3, 0, 1⟩ .noc0 = .ok
    ([⟨⟨3, 9, 8⟩, .noc0East⟩, ⟨⟨3, 9, 9⟩, .noc0East⟩, ⟨⟨3, 9, 0⟩, .noc0East⟩, ⟨⟨3, 9, 1⟩, .noc0South⟩,
      ⟨⟨3, 10, 1⟩, .noc0South⟩, ⟨⟨3, 11, 1⟩, .noc0South⟩], ⟨3, 0, 1⟩) := by decide +kernel
example : routeSegment 12 10 22 3 ⟨3, 1, 1⟩ ⟨3, 11, 8⟩ .noc1 = .ok
    ([⟨⟨3, 1, 1⟩, .noc1North⟩, ⟨⟨3, 0, 1⟩, .noc1North⟩, ⟨⟨3, 11, 1⟩, .noc1West⟩, ⟨⟨3, 11, 0⟩, .noc1West⟩,
      ⟨⟨3, 11, 9⟩, .noc1West⟩], ⟨3, 11, 8⟩) := by decide +kernel
example : (workers 8 8).length = 25 ∧ (3, 3) ∈ workers 8 8 := by decide +kernel

/-! ### C96: timesteps -/

theorem inBin_iff {c t : Int} (hc : 0 < c) {u : Usage} (hu : u.start < u.stop) :
    inBin c t u = true ↔ Meets u.start u.stop c t := by
  simp only [inBin, decide_eq_true_eq, Meets]
  constructor
  · rintro ⟨h1, h2⟩
    have h1' : u.start < (t + 1) * c := by
      have := Int.lt_mul_of_ediv_lt hc (show u.start / c < t + 1 by omega)
      exact this
    have h2' : t * c ≤ u.stop - 1 := (Int.le_ediv_iff_mul_le hc).mp (by omega)
    refine ⟨max u.start (t * c), ⟨le_max_left _ _, by omega⟩, le_max_right _ _, ?_⟩
    have : t * c < (t + 1) * c := by nlinarith
    omega
  · rintro ⟨x, ⟨h1, h2⟩, h3, h4⟩
    constructor
    · have := Int.ediv_lt_of_lt_mul hc (show u.start < (t + 1) * c by omega)
      omega
    · have := (Int.le_ediv_iff_mul_le hc).mpr (show t * c ≤ u.stop - 1 by omega)
      omega

/-- All recorded usages in the order in which they are recorded. -/
def usageList (ts : List Transfer) : List (LinkAttr × Usage) := ts.flatMap fun t => t.route.flatMap (segmentUsages t)

theorem record_perm (d : List (LinkAttr × List Usage)) (k : LinkAttr) (u : Usage) :
    ((record d k u).flatMap fun e => e.2.map fun v => (e.1, v)).Perm
      ((d.flatMap fun e => e.2.map fun v => (e.1, v)) ++ [(k, u)]) := by
  induction d with
  | nil => simp [record]
  | cons e d ih =>
    unfold record
    split_ifs with h
    · subst h
      simp only [List.flatMap_cons, List.map_append, List.map_cons, List.map_nil, List.append_assoc]
      exact List.Perm.append_left _ List.perm_append_comm
    · simp only [List.flatMap_cons, List.append_assoc]
      exact List.Perm.append_left _ ih

theorem linksUsed_perm (ts : List Transfer) :
    ((linksUsed ts).flatMap fun e => e.2.map fun v => (e.1, v)).Perm (usageList ts) := by
  have key : ∀ (l : List (LinkAttr × Usage)) (d : List (LinkAttr × List Usage)),
      ((l.foldl (fun d e => record d e.1 e.2) d).flatMap fun e => e.2.map fun v => (e.1, v)).Perm
        ((d.flatMap fun e => e.2.map fun v => (e.1, v)) ++ l) := by
    intro l
    induction l with
    | nil => intro d; simp
    | cons e l ih =>
      intro d
      rw [List.foldl_cons]
      refine (ih _).trans ?_
      have := (record_perm d e.1 e.2).append_right l
      simpa using this
  have h := key (usageList ts) []
  simp only [List.flatMap_nil, List.nil_append] at h
  exact h

theorem bin_perm (c t : Int) (ts : List Transfer) :
    (bin c t (linksUsed ts)).Perm ((usageList ts).filter fun e => inBin c t e.2) := by
  have h := (linksUsed_perm ts).filter fun e => inBin c t e.2
  refine List.Perm.trans (List.Perm.of_eq ?_) h
  rw [List.filter_flatMap]
  unfold bin
  congr 1
  funext e
  rw [List.filter_map]
  rfl

theorem mem_usageList {ts : List Transfer} {e : LinkAttr × Usage} : e ∈ usageList ts ↔
    ∃ x ∈ ts, ∃ s ∈ x.route, e ∈ segmentUsages x s := by
  simp [usageList, List.mem_flatMap]

theorem segmentUsages_timed {x : Transfer} {s : Segment} (h : s.start < s.stop) :
    segmentUsages x s = s.links.map fun l => (l, ⟨s.start, s.stop, x.bytes / ((s.stop - s.start + 1 : Int) : ℚ), x.id⟩) := by
  unfold segmentUsages
  simp only
  split_ifs with h0
  · have : s.links = [] := by
      rcases h0 with h0 | h0
      · omega
      · exact List.length_eq_zero_iff.mp h0
    rw [this]; rfl
  · rfl

/-- C96.  The active transfers of a timestep are exactly those that use a link during one of its cycles, each once. -/
theorem C96_active (c t : Int) (hc : 0 < c) (ts : List Transfer) (ht : Timed ts) (i : Int) :
    (i ∈ activeTransfers c t ts ↔
      ∃ x ∈ ts, x.id = i ∧ ∃ s ∈ x.route, s.links ≠ [] ∧ Meets s.start s.stop c t) ∧
    (activeTransfers c t ts).Nodup := by
  refine ⟨?_, List.nodup_dedup _⟩
  unfold activeTransfers
  rw [List.mem_dedup, List.mem_map]
  constructor
  · rintro ⟨e, he, rfl⟩
    obtain ⟨he, hb⟩ := List.mem_filter.mp ((bin_perm c t ts).mem_iff.mp he)
    obtain ⟨x, hx, s, hs, he⟩ := mem_usageList.mp he
    rw [segmentUsages_timed (ht x hx s hs)] at he
    obtain ⟨l, hl, rfl⟩ := List.mem_map.mp he
    exact ⟨x, hx, rfl, s, hs, List.ne_nil_of_mem hl, (inBin_iff hc (ht x hx s hs)).mp hb⟩
  · rintro ⟨x, hx, rfl, s, hs, hl, hm⟩
    obtain ⟨l, hl⟩ := List.exists_mem_of_ne_nil _ hl
    refine ⟨(l, ⟨s.start, s.stop, x.bytes / ((s.stop - s.start + 1 : Int) : ℚ), x.id⟩), ?_, rfl⟩
    refine (bin_perm c t ts).mem_iff.mpr (List.mem_filter.mpr ⟨mem_usageList.mpr ⟨x, hx, s, hs, ?_⟩, ?_⟩)
    · rw [segmentUsages_timed (ht x hx s hs)]
      exact List.mem_map.mpr ⟨l, hl, rfl⟩
    · exact (inBin_iff (u := ⟨s.start, s.stop, _, x.id⟩) hc (ht x hx s hs)).mpr hm

theorem addDemand_lookup (d : List (LinkAttr × ℚ)) (k l : LinkAttr) (q : ℚ) :
    (addDemand d k q).lookup l = if l = k then some ((d.lookup l).getD 0 + q) else d.lookup l := by
  induction d with
  | nil =>
    by_cases h : l = k <;> simp [addDemand, List.lookup, h]
    rw [show (l == k) = false by simpa using h]
  | cons e d ih =>
    unfold addDemand
    by_cases he : e.1 = k
    · rw [if_pos he]
      by_cases h : l = k
      · subst h; simp [List.lookup, he]
      · have : (l == e.1) = false := by simpa [he] using h
        simp [List.lookup, h, this]
    · rw [if_neg he]
      by_cases h : l = e.1
      · have : l ≠ k := by rw [h]; exact he
        simp [List.lookup, h, he]
      · have h' : (l == e.1) = false := by simpa using h
        simp only [List.lookup, h', ih]

theorem addDemand_keys (d : List (LinkAttr × ℚ)) (k : LinkAttr) (q : ℚ) :
    (addDemand d k q).map (·.1) = if k ∈ d.map (·.1) then d.map (·.1) else d.map (·.1) ++ [k] := by
  induction d with
  | nil => simp [addDemand]
  | cons e d ih =>
    unfold addDemand
    by_cases he : e.1 = k
    · simp [he]
    · rw [if_neg he, List.map_cons, ih]
      have : ¬ k = e.1 := fun h => he h.symm
      simp only [List.map_cons, List.mem_cons, this, false_or]
      split_ifs <;> simp

theorem demand_fold (l : LinkAttr) : ∀ (b : List (LinkAttr × Usage)) (d : List (LinkAttr × ℚ)),
    ((b.foldl (fun d e => addDemand d e.1 e.2.demand) d).lookup l).getD 0 =
        (d.lookup l).getD 0 + (b.map fun e => if e.1 = l then e.2.demand else 0).sum ∧
    (((b.foldl (fun d e => addDemand d e.1 e.2.demand) d).lookup l).isSome ↔
      (d.lookup l).isSome ∨ ∃ e ∈ b, e.1 = l) := by
  intro b
  induction b with
  | nil => intro d; simp
  | cons e b ih =>
    intro d
    rw [List.foldl_cons]
    obtain ⟨h1, h2⟩ := ih (addDemand d e.1 e.2.demand)
    rw [h1, h2, addDemand_lookup]
    by_cases h : e.1 = l
    · subst h
      simp only [if_true, Option.getD_some, List.map_cons, List.sum_cons, Option.isSome_some, true_or,
        List.mem_cons, exists_eq_or_imp, or_true, and_true]
      ring
    · have h' : ¬ l = e.1 := fun x => h x.symm
      simp only [h, h', if_false, List.map_cons, List.sum_cons, zero_add, List.mem_cons, exists_eq_or_imp, false_or,
        true_and]

/-- The contribution of a transfer that the generator uses: the bytes over the duration and one more cycle. -/
def perLink (x : Transfer) (s : Segment) : ℚ := x.bytes / ((s.stop - s.start + 1 : Int) : ℚ)

open Classical in
theorem segment_sum (c t : Int) (hc : 0 < c) (l : LinkAttr) (x : Transfer) (s : Segment) (h : s.start < s.stop) :
    (((segmentUsages x s).filter fun e => inBin c t e.2).map fun e => if e.1 = l then e.2.demand else 0).sum =
      if Meets s.start s.stop c t then s.links.count l * perLink x s else 0 := by
  rw [segmentUsages_timed h]
  have hb := inBin_iff (t := t) (u := ⟨s.start, s.stop, perLink x s, x.id⟩) hc h
  split_ifs with hm
  · have hb := hb.mpr hm
    generalize s.links = ls
    induction ls with
    | nil => simp
    | cons a ls ih =>
      rw [List.map_cons, List.filter_cons_of_pos (by exact hb), List.map_cons, List.sum_cons, ih, List.count_cons]
      by_cases ha : a = l
      · simp only [ha, if_true, beq_self_eq_true, Nat.cast_add, Nat.cast_one]
        show perLink x s + _ = _
        ring
      · simp [ha]
  · have hb : inBin c t ⟨s.start, s.stop, perLink x s, x.id⟩ = false := by
      rw [← Bool.not_eq_true]; exact fun h => hm (hb.mp h)
    generalize s.links = ls
    induction ls with
    | nil => simp
    | cons a ls ih =>
      rw [List.map_cons, List.filter_cons_of_neg (by rw [Bool.not_eq_true]; exact hb), ih]

theorem route_sum (c t : Int) (hc : 0 < c) (l : LinkAttr) (x : Transfer) : ∀ (r : List Segment),
    (∀ s ∈ r, s.start < s.stop) →
    (((r.flatMap (segmentUsages x)).filter fun e => inBin c t e.2).map fun e => if e.1 = l then e.2.demand else 0).sum =
      demandOn perLink c t [⟨x.id, x.bytes, x.stop, r⟩] l := by
  intro r
  induction r with
  | nil => intro _; simp [demandOn]
  | cons s r ih =>
    intro h
    rw [List.flatMap_cons, List.filter_append, List.map_append, List.sum_append,
      ih (fun y hy => h y (List.mem_cons_of_mem _ hy)), segment_sum c t hc l x s (h s List.mem_cons_self)]
    simp only [demandOn, List.map_cons, List.map_nil, List.sum_cons, List.sum_nil, add_zero]
    rfl

theorem usage_sum (c t : Int) (hc : 0 < c) (l : LinkAttr) : ∀ (ts : List Transfer), Timed ts →
    (((usageList ts).filter fun e => inBin c t e.2).map fun e => if e.1 = l then e.2.demand else 0).sum =
      demandOn perLink c t ts l := by
  intro ts
  induction ts with
  | nil => intro _; rfl
  | cons x ts ih =>
    intro ht
    have ih := ih (fun y hy => ht y (List.mem_cons_of_mem _ hy))
    have hx := route_sum c t hc l x x.route (ht x List.mem_cons_self)
    unfold usageList at ih ⊢
    rw [List.flatMap_cons, List.filter_append, List.map_append, List.sum_append, ih, hx]
    simp [demandOn]

theorem linkDemand_perm (c t : Int) (ts : List Transfer) (l : LinkAttr) :
    ((bin c t (linksUsed ts)).map fun e => if e.1 = l then e.2.demand else 0).sum =
      (((usageList ts).filter fun e => inBin c t e.2).map fun e => if e.1 = l then e.2.demand else 0).sum :=
  ((bin_perm c t ts).map _).sum_eq

theorem linkDemand_nodup (c t : Int) (ts : List Transfer) : ((linkDemand c t ts).map (·.1)).Nodup := by
  have key : ∀ (b : List (LinkAttr × Usage)) (d : List (LinkAttr × ℚ)), (d.map (·.1)).Nodup →
      ((b.foldl (fun d e => addDemand d e.1 e.2.demand) d).map (·.1)).Nodup := by
    intro b
    induction b with
    | nil => intro d h; exact h
    | cons e b ih =>
      intro d h
      rw [List.foldl_cons]
      apply ih
      rw [addDemand_keys]
      split_ifs with hk
      · exact h
      · exact List.nodup_append.mpr ⟨h, by simp, by
          intro a ha b hb; rw [List.mem_singleton.mp hb]; rintro rfl; exact hk ha⟩
  exact key _ _ List.nodup_nil

/-- C96.  The demand of a link in a timestep is the sum of the contributions of the transfers on it; a link is listed
exactly if some transfer uses it during a cycle of the timestep, and once. -/
theorem C96_demand (c t : Int) (hc : 0 < c) (ts : List Transfer) (ht : Timed ts) (l : LinkAttr) :
    ((linkDemand c t ts).lookup l).getD 0 = demandOn perLink c t ts l ∧
    (((linkDemand c t ts).lookup l).isSome ↔
      ∃ x ∈ ts, ∃ s ∈ x.route, l ∈ s.links ∧ Meets s.start s.stop c t) ∧
    ((linkDemand c t ts).map (·.1)).Nodup := by
  obtain ⟨h1, h2⟩ := demand_fold l (bin c t (linksUsed ts)) []
  refine ⟨?_, ?_, linkDemand_nodup c t ts⟩
  · unfold linkDemand
    rw [h1, linkDemand_perm, usage_sum c t hc l ts ht]
    simp [List.lookup]
  · unfold linkDemand
    rw [h2]
    simp only [List.lookup, Option.isSome_none, Bool.false_eq_true, false_or]
    constructor
    · rintro ⟨e, he, rfl⟩
      obtain ⟨he, hb⟩ := List.mem_filter.mp ((bin_perm c t ts).mem_iff.mp he)
      obtain ⟨x, hx, s, hs, he⟩ := mem_usageList.mp he
      rw [segmentUsages_timed (ht x hx s hs)] at he
      obtain ⟨l, hl, rfl⟩ := List.mem_map.mp he
      exact ⟨x, hx, s, hs, hl, (inBin_iff hc (ht x hx s hs)).mp hb⟩
    · rintro ⟨x, hx, s, hs, hl, hm⟩
      refine ⟨(l, ⟨s.start, s.stop, x.bytes / ((s.stop - s.start + 1 : Int) : ℚ), x.id⟩), ?_, rfl⟩
      refine (bin_perm c t ts).mem_iff.mpr (List.mem_filter.mpr ⟨mem_usageList.mpr ⟨x, hx, s, hs, ?_⟩, ?_⟩)
      · rw [segmentUsages_timed (ht x hx s hs)]
        exact List.mem_map.mpr ⟨l, hl, rfl⟩
      · exact (inBin_iff (u := ⟨s.start, s.stop, _, x.id⟩) hc (ht x hx s hs)).mpr hm

/-- The time of a transfer is at least 40 cycles, and long enough for its bytes at the given rate. -/
theorem C96_time (bytes : Int) (rate : ℚ) (hr : 0 < rate) :
    40 ≤ transferTime bytes rate ∧ (bytes : ℚ) < (transferTime bytes rate + 1) * rate := by
  unfold transferTime
  simp only [if_neg hr.ne']
  refine ⟨le_max_left _ _, ?_⟩
  have h1 := Int.lt_floor_add_one ((bytes : ℚ) / rate)
  rw [div_lt_iff₀ hr] at h1
  have h2 : ((⌊(bytes : ℚ) / rate⌋ : Int) : ℚ) ≤ ((max 40 ⌊(bytes : ℚ) / rate⌋ : Int) : ℚ) := by
    exact_mod_cast le_max_right _ _
  nlinarith

theorem foldl_max_le : ∀ (l : List Int) (m x : Int), x ≤ m ∨ x ∈ l → x ≤ l.foldl max m := by
  intro l
  induction l with
  | nil => intro m x h; simpa using h
  | cons a l ih =>
    intro m x h
    rw [List.foldl_cons]
    apply ih
    rcases h with h | h
    · exact .inl (le_trans h (le_max_left _ _))
    · rcases List.mem_cons.mp h with rfl | h
      · exact .inl (le_max_right _ _)
      · exact .inr h

/-- C96.  The timesteps cover all transfers: no segment ends after the last one. -/
theorem C96_cover (c : Int) (hc : 0 < c) (x : Transfer) (ts : List Transfer) (y : Transfer) (hy : y ∈ x :: ts)
    (s : Segment) (hs : s ∈ y.route) : s.stop ≤ numTimesteps c x ts * c := by
  have h1 : s.stop ≤ maxCycle (x :: ts) :=
    foldl_max_le _ _ _ (.inr (List.mem_flatMap.mpr ⟨y, hy, List.mem_map.mpr ⟨s, hs, rfl⟩⟩))
  unfold numTimesteps
  simp only
  generalize ts.foldl (fun m x => max m x.stop) x.stop = a
  have hq : (0 : ℚ) < c := by exact_mod_cast hc
  have h2 := Int.le_ceil (((max (maxCycle (x :: ts)) a + c : Int) : ℚ) / c)
  rw [div_le_iff₀ hq] at h2
  have h3 : max (maxCycle (x :: ts)) a + c ≤ ⌈((max (maxCycle (x :: ts)) a + c : Int) : ℚ) / c⌉ * c := by
    exact_mod_cast h2
  have := le_max_left (maxCycle (x :: ts)) a
  omega

/-! ### C97: demands and averages -/

/-- C97 does not hold: the demand of a transfer on a link, taken over all its cycles, is less than its bytes. -/
theorem C97_violated_bytes (c t : Int) (hc : 0 < c) (x : Transfer) (s : Segment) (hx : x.route = [s])
    (hb : 0 < x.bytes) (hs : s.start < s.stop) (l : LinkAttr) (hl : s.links.count l = 1)
    (hm : Meets s.start s.stop c t) :
    0 < ((linkDemand c t [x]).lookup l).getD 0 ∧
    ((linkDemand c t [x]).lookup l).getD 0 * ((s.stop - s.start : Int) : ℚ) < x.bytes := by
  have ht : Timed [x] := by
    intro y hy r hr
    rw [List.mem_singleton.mp hy, hx] at hr
    rw [List.mem_singleton.mp hr]; exact hs
  rw [(C96_demand c t hc [x] ht l).1]
  have e : demandOn perLink c t [x] l = perLink x s := by
    simp [demandOn, hx, hm, hl]
  rw [e]
  unfold perLink
  have hd : (0 : ℚ) < ((s.stop - s.start : Int) : ℚ) := by exact_mod_cast (by omega : 0 < s.stop - s.start)
  have hq : (0 : ℚ) < x.bytes := by exact_mod_cast hb
  rw [Int.cast_add, Int.cast_one]
  refine ⟨by positivity, ?_⟩
  rw [div_mul_eq_mul_div, div_lt_iff₀ (by positivity)]
  nlinarith

theorem sum_replace {A : List LinkAttr} (hA : A.Nodup) {k : LinkAttr} (hk : k ∈ A) (v : ℚ) (g : LinkAttr → ℚ)
    (hg : g k = 0) : (A.map fun l => if l = k then v else g l).sum = v + (A.map g).sum := by
  induction A with
  | nil => cases hk
  | cons a A ih =>
    obtain ⟨ha, hA⟩ := List.nodup_cons.mp hA
    simp only [List.map_cons, List.sum_cons]
    by_cases h : a = k
    · subst h
      have : A.map (fun l => if l = a then v else g l) = A.map g := by
        apply List.map_congr_left
        intro l hl
        rw [if_neg (by rintro rfl; exact ha hl)]
      rw [this, if_pos rfl, hg]; ring
    · rw [if_neg h, ih hA (by simpa [Ne.symm h] using hk)]; ring

theorem sum_dict {A : List LinkAttr} (hA : A.Nodup) (f : ℚ → ℚ) (hf : f 0 = 0) : ∀ (d : List (LinkAttr × ℚ)),
    (d.map (·.1)).Nodup → (∀ e ∈ d, e.1 ∈ A) →
    (d.map fun e => f e.2).sum = (A.map fun l => f ((d.lookup l).getD 0)).sum := by
  intro d
  induction d with
  | nil => intro _ _; simp [List.lookup, hf]
  | cons e d ih =>
    intro hd hs
    rw [List.map_cons] at hd
    obtain ⟨h1, h2⟩ := List.nodup_cons.mp hd
    have h0 : d.lookup e.1 = none := by
      rw [List.lookup_eq_none_iff]
      intro p hp
      have : e.1 ≠ p.1 := by rintro h; exact h1 (List.mem_map.mpr ⟨p, hp, h.symm⟩)
      simpa using this
    rw [List.map_cons, List.sum_cons, ih h2 (fun x hx => hs x (List.mem_cons_of_mem _ hx)),
      ← sum_replace hA (hs e List.mem_cons_self) (f e.2) (fun l => f ((d.lookup l).getD 0)) (by simp [h0, hf])]
    congr 1
    apply List.map_congr_left
    intro l _
    by_cases h : l = e.1
    · simp [List.lookup, h]
    · have h' : (l == e.1) = false := by simpa using h
      simp [List.lookup, h, h']

theorem allLinks_nodup (devices rows cols : Nat) : (allLinks devices rows cols).Nodup := by
  unfold allLinks
  rw [List.nodup_flatMap]
  refine ⟨fun d _ => ?_, ?_⟩
  · rw [List.nodup_flatMap]
    refine ⟨fun r _ => ?_, ?_⟩
    · rw [List.nodup_flatMap]
      refine ⟨fun c _ => by simp, ?_⟩
      refine List.Pairwise.imp ?_ (List.nodup_range (n := cols))
      intro a b hab x hx hy
      simp only [List.mem_map] at hx hy
      obtain ⟨_, _, rfl⟩ := hx
      obtain ⟨_, _, hy⟩ := hy
      simp at hy; omega
    · refine List.Pairwise.imp ?_ (List.nodup_range (n := rows))
      intro a b hab x hx hy
      simp only [List.mem_flatMap, List.mem_map] at hx hy
      obtain ⟨_, _, _, _, rfl⟩ := hx
      obtain ⟨_, _, _, _, hy⟩ := hy
      simp at hy; omega
  · refine List.Pairwise.imp ?_ (List.nodup_range (n := devices))
    intro a b hab x hx hy
    simp only [List.mem_flatMap, List.mem_map] at hx hy
    obtain ⟨_, _, _, _, _, _, rfl⟩ := hx
    obtain ⟨_, _, _, _, _, _, hy⟩ := hy
    simp at hy; omega

theorem allLinks_length (devices rows cols : Nat) :
    (allLinks devices rows cols).length = devices * (rows * (cols * 4)) := by
  simp [allLinks, List.length_flatMap]

/-- C97, in general: the averages of the generator are the means over all links of the board times the number of
devices and divided by two, since they are divided by eight links for each core of one device. -/
theorem C97_averages (devices rows cols : Nat) (hd : 0 < devices) (hr : 0 < rows) (hk : 0 < cols) (c t : Int)
    (ts : List Transfer)
    (hl : ∀ x ∈ ts, ∀ s ∈ x.route, ∀ l ∈ s.links, l ∈ allLinks devices rows cols) (hc : 0 < c) (ht : Timed ts) :
    2 * avgDemand rows cols c t ts =
      devices * meanOver devices rows cols (fun l => 100 * (demandOn perLink c t ts l / maxLinkBw)) ∧
    2 * avgUtil rows cols c t ts =
      devices * meanOver devices rows cols (fun l => min 100 (100 * (demandOn perLink c t ts l / maxLinkBw))) := by
  have hs : ∀ e ∈ linkDemand c t ts, e.1 ∈ allLinks devices rows cols := by
    intro e he
    have : ((linkDemand c t ts).lookup e.1).isSome := by
      rw [List.lookup_isSome_iff]
      exact ⟨e, he, by simp⟩
    obtain ⟨x, hx, s, hs, h, _⟩ := (C96_demand c t hc ts ht e.1).2.1.mp this
    exact hl x hx s hs _ h
  have hn := allLinks_nodup devices rows cols
  have hdq : (0 : ℚ) < devices := by exact_mod_cast hd
  have hrq : (0 : ℚ) < rows := by exact_mod_cast hr
  have hkq : (0 : ℚ) < cols := by exact_mod_cast hk
  have hlen : ((allLinks devices rows cols).length : ℚ) = devices * (rows * (cols * 4)) := by
    rw [allLinks_length]; push_cast; ring
  have hw : (0 : ℚ) < maxLinkBw := by norm_num [maxLinkBw]
  have hmap : ∀ (k : ℚ) (f : LinkAttr → ℚ), ((allLinks devices rows cols).map fun l => k * f l).sum =
      k * ((allLinks devices rows cols).map f).sum := by
    intro k f
    induction allLinks devices rows cols with
    | nil => simp
    | cons a l ih => simp only [List.map_cons, List.sum_cons, ih]; ring
  constructor
  · unfold avgDemand meanOver numLinks
    rw [sum_dict hn (fun q => q) rfl _ (linkDemand_nodup c t ts) hs, hlen]
    rw [show (fun l => 100 * (demandOn perLink c t ts l / maxLinkBw)) =
      fun l => (100 / maxLinkBw) * ((linkDemand c t ts).lookup l).getD 0 from funext fun l => by
        rw [(C96_demand c t hc ts ht l).1]; ring, hmap]
    field_simp
  · unfold avgUtil meanOver numLinks
    rw [sum_dict hn (fun q => min maxLinkBw q) (min_eq_right hw.le) _ (linkDemand_nodup c t ts) hs, hlen]
    rw [show (fun l => min 100 (100 * (demandOn perLink c t ts l / maxLinkBw))) =
      fun l => (100 / maxLinkBw) * min maxLinkBw (((linkDemand c t ts).lookup l).getD 0) from funext fun l => by
        rw [(C96_demand c t hc ts ht l).1, mul_min_of_nonneg _ _ (by positivity)]
        congr 1
        · field_simp
        · ring, hmap]
    field_simp

/-- C97 does not hold: the average is the mean over all links of the board only for boards with two devices, or without
any demand. -/
theorem C97_violated_average (devices rows cols : Nat) (hd : 0 < devices) (hr : 0 < rows) (hk : 0 < cols) (c t : Int)
    (ts : List Transfer)
    (hl : ∀ x ∈ ts, ∀ s ∈ x.route, ∀ l ∈ s.links, l ∈ allLinks devices rows cols) (hc : 0 < c) (ht : Timed ts) :
    avgDemand rows cols c t ts = meanOver devices rows cols (fun l => 100 * (demandOn perLink c t ts l / maxLinkBw)) ↔
      devices = 2 ∨ avgDemand rows cols c t ts = 0 := by
  have h := (C97_averages devices rows cols hd hr hk c t ts hl hc ht).1
  have hdq : (0 : ℚ) < devices := by exact_mod_cast hd
  constructor
  · intro e
    rw [← e] at h
    have : (2 - (devices : ℚ)) * avgDemand rows cols c t ts = 0 := by linarith
    rcases mul_eq_zero.mp this with h0 | h0
    · left; exact_mod_cast (by linarith : (devices : ℚ) = 2)
    · exact .inr h0
  · rintro (h0 | h0)
    · subst h0
      push_cast at h
      linarith
    · rw [h0] at h ⊢
      have h1 : (devices : ℚ) * meanOver devices rows cols
        (fun l => 100 * (demandOn perLink c t ts l / maxLinkBw)) = 0 := by linarith
      rcases mul_eq_zero.mp h1 with h2 | h2
      · exact absurd h2 hdq.ne'
      · exact h2.symm

/-! ### C98: paths between devices -/

/-- C98 does not hold: whatever the topology, the search for a path between devices ends in a failed assertion. -/
theorem C98_violated (g : Fabric.Loaded) (src dst : Int) : findOptimalPath g src dst = .std .pyAssertion := by
  unfold findOptimalPath
  split_ifs
  · rfl
  · rfl

/-! ### Concrete cases -/

/-- Two transfers that share a link in timestep 1 of 32 cycles. -/
def sample : List Transfer :=
  [⟨0, 2048, 60, [⟨20, 60, [⟨⟨0, 1, 1⟩, .noc0East⟩, ⟨⟨0, 1, 2⟩, .noc0South⟩]⟩]⟩,
   ⟨1, 4096, 104, [⟨50, 104, [⟨⟨0, 1, 2⟩, .noc0South⟩]⟩]⟩]

example : activeTransfers 32 0 sample = [0] ∧ activeTransfers 32 1 sample = [0, 1] ∧
    activeTransfers 32 2 sample = [1] ∧ activeTransfers 32 4 sample = [] := by decide +kernel
example : linkDemand 32 1 sample = [(⟨⟨0, 1, 1⟩, .noc0East⟩, 2048 / 41), (⟨⟨0, 1, 2⟩, .noc0South⟩, 2048 / 41 + 4096 / 55)] := by
  decide +kernel
example : (sample.head?.map fun x => numTimesteps 32 x sample.tail) = some 5 := by decide +kernel
example : transferTime 8192 (281 / 10) = 291 ∧ transferTime 512 (281 / 10) = 40 := by decide +kernel
example : avgDemand 12 10 32 1 sample ≠ 0 := by decide +kernel
example : Timed sample := by
  intro t ht s hs
  simp only [sample, List.mem_cons, List.not_mem_nil, or_false] at ht
  rcases ht with rfl | rfl <;> simp only [List.mem_cons, List.not_mem_nil, or_false] at hs <;> subst hs <;> decide

end NPE.Props
