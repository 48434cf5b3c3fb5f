import Verif.Props.Fabric

/-
C74 and C76, the other half: which events have a path at all.
-/

namespace NPE.Spec.Fabric
open NPE.Fabric

/-- Every connection between neighbours has a channel on both sides in the routing plane, and every channel has an
ethernet core. -/
structure Wired (t : Topology) (plane : Int) : Prop where
  ports : ∀ {a b : Int} {d d' : Dir}, Moves t a d b d' →
    (∃ c, ((a, plane, d'), c) ∈ t.planes) ∧ ∃ c, ((b, plane, d'.inverse), c) ∈ t.planes
  cores : ∀ e ∈ t.planes, ∃ p, (e.2, p) ∈ t.ethCoord

/-- There are `n` places in direction `d` from (x, y): the borders are connected or the last one is in the mesh. -/
def Room (t : Topology) (ns ew x y : Int) (d : Dir) (n : Int) : Prop :=
  Wraps t ∨ Inside ns ew (x + n * (unit d).1) (y + n * (unit d).2)

end NPE.Spec.Fabric

namespace NPE.Props
open Fabric Spec.Fabric Spec Out

theorem lookup_key {α β : Type} [BEq α] [LawfulBEq α] {l : List (α × β)} {k : α} {v : β} (h : (k, v) ∈ l) :
    ∃ v', l.lookup k = some v' ∧ (k, v') ∈ l := by
  induction l with
  | nil => cases h
  | cons e l ih =>
    rw [List.lookup_cons]
    cases hk : k == e.1 with
    | true => exact ⟨e.2, rfl, by rw [eq_of_beq hk]; exact List.mem_cons_self⟩
    | false =>
      rcases List.mem_cons.mp h with h | h
      · rw [← h] at hk
        exact absurd hk (by simp)
      · obtain ⟨v', h1, h2⟩ := ih h
        exact ⟨v', h1, List.mem_cons_of_mem _ h2⟩

theorem room_step {t : Topology} {ns ew x y : Int} {d : Dir} {n : Int} (hin : Inside ns ew x y) (hn : 0 ≤ n)
    (h : Room t ns ew x y d (n + 1)) :
    (Wraps t ∨ ¬ Leaves ns ew x y d) ∧ Room t ns ew (moved t ns ew x y d).1 (moved t ns ew x y d).2 d n := by
  rcases h with h | h
  · exact ⟨.inl h, .inl h⟩
  by_cases hw : Wraps t
  · exact ⟨.inl hw, .inl hw⟩
  have h1 : Inside ns ew (x + (unit d).1) (y + (unit d).2) := by
    unfold Inside at h hin ⊢
    cases d <;> simp only [unit] at h ⊢ <;> omega
  refine ⟨.inr (not_not.mpr h1), .inr ?_⟩
  unfold moved
  rw [if_neg hw]
  unfold Inside at h ⊢
  cases d <;> simp only [unit] at h ⊢ <;> omega

theorem room_less {t : Topology} {ns ew x y : Int} {d : Dir} {n k : Int} (hin : Inside ns ew x y) (hk : 0 ≤ k)
    (hkn : k ≤ n) (h : Room t ns ew x y d n) : Room t ns ew x y d k := by
  rcases h with h | h
  · exact .inl h
  · refine .inr ?_
    unfold Inside at h hin ⊢
    cases d <;> simp only [unit] at h ⊢ <;> omega

theorem next_total {t : Topology} (hp : Proper t) (ht : ¬ Turns t) {a m ns ew x y : Int} {d : Dir}
    (hs : Sits t a m ns ew x y) (hr : Wraps t ∨ ¬ Leaves ns ew x y d) :
    ∃ b, t.next a d = .ok (b, d) ∧ Moves t a d b d ∧ Sits t b m ns ew (moved t ns ew x y d).1 (moved t ns ew x y d).2 := by
  obtain ⟨⟨b, d'⟩, h⟩ := ((C57_refused hp hs (fun h => absurd h ht) d).1).mpr (by
    rintro ⟨h1, h2, _⟩
    rcases hr with hr | hr
    · exact h1 hr
    · exact hr h2)
  have hm := next_moves hp h
  obtain ⟨rfl, hb⟩ := moves_place hp ht hm hs
  exact ⟨b, h, hm, hb⟩

theorem core_total {t : Topology} {plane : Int} (hw : Wired t plane) {k : Int × Int × Dir} {c : Int}
    (h : (k, c) ∈ t.planes) : ∃ c' p, t.planes.lookup k = some c' ∧ t.ethCoord.lookup c' = some p := by
  obtain ⟨c', h1, h2⟩ := lookup_key h
  obtain ⟨p, hp⟩ := hw.cores _ h2
  obtain ⟨p', h3, _⟩ := lookup_key hp
  exact ⟨c', p', h1, h3⟩

theorem forwardHop_total {t : Topology} (hp : Proper t) (ht : ¬ Turns t) {plane : Int} (hw : Wired t plane)
    {a m ns ew x y : Int} {d : Dir} (hs : Sits t a m ns ew x y) (hr : Wraps t ∨ ¬ Leaves ns ew x y d) :
    ∃ q b p, forwardHop t plane a d = .ok (q, b, p, d) ∧
      Sits t b m ns ew (moved t ns ew x y d).1 (moved t ns ew x y d).2 := by
  obtain ⟨b, h, hm, hb⟩ := next_total hp ht hs hr
  obtain ⟨⟨c, hc⟩, ⟨c', hc'⟩⟩ := hw.ports hm
  obtain ⟨k, q, h1, h2⟩ := core_total hw hc
  obtain ⟨k', p, h3, h4⟩ := core_total hw hc'
  refine ⟨q, b, p, ?_, hb⟩
  unfold forwardHop
  rw [h, bind_ok]
  simp only
  rw [h1, h3]
  show (need (t.ethCoord.lookup k) >>= fun fwd => need (t.ethCoord.lookup k') >>= fun recv => _) = _
  rw [h2, h4]
  rfl

/-- Hops in a line, with room for `r` further moves. -/
theorem hops_total {t : Topology} (hp : Proper t) (ht : ¬ Turns t) {plane : Int} (hw : Wired t plane) {start total : Int}
    {dst : List Json} {term : Bool} {m ns ew : Int} (n : Nat) :
    ∀ (j : Nat) (w : Walk) (x y : Int), (j : Int) + n = total → Sits t w.dev m ns ew x y →
      Room t ns ew x y w.dir (if term then n - 1 else n) →
      ∃ w', Out.foldlM (hopBody t ⟨start, total, plane, dst, term⟩) w (hopsFrom j n) = .ok w' ∧
        Sits t w'.dev m ns ew (displaced t ns ew x y w.dir (if term ∧ n ≠ 0 then n - 1 else n)).1
          (displaced t ns ew x y w.dir (if term ∧ n ≠ 0 then n - 1 else n)).2 := by
  induction n with
  | zero =>
    intro j w x y _ hs _
    refine ⟨w, rfl, ?_⟩
    rw [if_neg (by simp)]
    rw [Int.natCast_zero, displaced_zero ⟨hs.x0, hs.x1, hs.y0, hs.y1⟩]
    exact hs
  | succ n ih =>
    intro j w x y hj hs hr
    rw [hopsFrom_succ]
    have hz := displaced_zero (t := t) ⟨hs.x0, hs.x1, hs.y0, hs.y1⟩ w.dir
    by_cases hf : (j : Int) + 1 < total ∨ ¬ term = true
    · have hstep := room_step (t := t) (d := w.dir) (n := if term then (n : Int) - 1 else n)
        ⟨hs.x0, hs.x1, hs.y0, hs.y1⟩ (by split <;> rename_i h
                                         · rcases hf with hf | hf
                                           · omega
                                           · exact absurd h hf
                                         · omega) (by
          cases term <;> simp only [if_true, Bool.false_eq_true, if_false] at hr ⊢
          · exact_mod_cast hr
          · convert hr using 1
            push_cast
            ring)
      obtain ⟨q, b, p, h1, h2⟩ := forwardHop_total hp ht hw hs hstep.1
      have hb : hopBody t ⟨start, total, plane, dst, term⟩ w ((j : Int) + 1) = .ok
          ⟨w.path ++ [⟨w.dev, "NOC_1", w.recv, some q, if start ≤ (j : Int) + 1 ∧ term then some dst else none, w.parent⟩],
            b, p, w.dir, w.parent + 1⟩ := by
        unfold hopBody
        simp only
        rw [if_pos hf, h1]
        rfl
      rw [foldlM_cons, hb, bind_ok]
      obtain ⟨w', g1, g2⟩ := ih (j + 1) ⟨w.path ++ [⟨w.dev, "NOC_1", w.recv, some q,
          if start ≤ (j : Int) + 1 ∧ term then some dst else none, w.parent⟩], b, p, w.dir, w.parent + 1⟩ _ _
        (by push_cast at hj ⊢; omega) h2 (by exact_mod_cast hstep.2)
      refine ⟨w', g1, ?_⟩
      simp only at g2
      rw [displaced_moved] at g2
      convert g2 using 2
      all_goals
        congr 1
        cases term
        · simp
        · have : n ≠ 0 := by
            rcases hf with hf | hf
            · push_cast at hj; omega
            · exact absurd rfl hf
          simp [this]
    · have hterm : term = true := by
        by_contra h
        exact hf (.inr h)
      have hn : n = 0 := by
        push_cast at hj
        have : ¬ (j : Int) + 1 < total := fun h => hf (.inl h)
        omega
      have hb : hopBody t ⟨start, total, plane, dst, term⟩ w ((j : Int) + 1) = .ok
          ⟨w.path ++ [⟨w.dev, "NOC_1", w.recv, none, if start ≤ (j : Int) + 1 ∧ term then some dst else none, w.parent⟩],
            w.dev, w.recv, w.dir, w.parent + 1⟩ := by
        unfold hopBody
        simp only
        rw [if_neg hf]
      rw [foldlM_cons, hb, bind_ok, hn]
      refine ⟨_, rfl, ?_⟩
      have hc : term = true ∧ 0 + 1 ≠ 0 := ⟨hterm, by omega⟩
      simp only [hterm, ne_eq, Nat.add_eq_zero_iff, one_ne_zero, and_false, not_false_eq_true, and_self, if_true]
      rw [show ((0 + 1 : Nat) : Int) - 1 = 0 by norm_num, hz]
      exact hs

/-- A line of hops. -/
theorem addHops_total {t : Topology} (hp : Proper t) (ht : ¬ Turns t) {plane : Int} (hw : Wired t plane)
    {path : List Segment} {dev : Int} {recv : Int × Int} {start range parent : Int} {dir : Dir} {dst : List Json}
    {term : Bool} {m ns ew x y : Int} (hpos : if term then 1 ≤ start + range - 1 else 0 ≤ start + range - 1)
    (hs : Sits t dev m ns ew x y) (hr : Room t ns ew x y dir (if term then start + range - 2 else start + range - 1)) :
    ∃ w, addHops t path dev recv start range dir plane dst term parent = .ok w ∧
      Sits t w.dev m ns ew (displaced t ns ew x y dir (if term then start + range - 2 else start + range - 1)).1
        (displaced t ns ew x y dir (if term then start + range - 2 else start + range - 1)).2 := by
  have h0 : 0 ≤ start + range - 1 := by
    split at hpos <;> omega
  obtain ⟨n, hn⟩ : ∃ n : Nat, start + range - 1 = n := ⟨(start + range - 1).toNat, by omega⟩
  obtain ⟨w, h1, h2⟩ := hops_total hp ht hw (start := start) (total := start + range - 1) (dst := dst) (term := term)
    (m := m) (ns := ns) (ew := ew) n 0 ⟨path, dev, recv, dir, parent⟩ x y (by rw [hn]; simp) hs (by
      convert hr using 1
      cases term <;> simp <;> omega)
  refine ⟨w, ?_, ?_⟩
  · unfold addHops
    rw [hops_eq, show (start + range - 1).toNat = n by omega]
    exact h1
  · convert h2 using 2
    all_goals
      congr 1
      cases term
      · simp [hn]
      · have : n ≠ 0 := by simp at hpos; omega
        simp [this]
        omega

/-- The channel is the one of this plane and direction, and of no other. -/
def Faces (t : Topology) (dev chan plane : Int) (d : Dir) : Prop :=
  ((dev, plane, d), chan) ∈ t.planes ∧ ∀ e ∈ t.planes, e.1.1 = dev → e.2 = chan → e.1 = (dev, plane, d)

/-- The common beginning of all paths. -/
theorem start_total {t : Topology} (hp : Proper t) (ht : ¬ Turns t) (hw : ∀ e ∈ t.planes, Wired t e.1.2.1)
    {dev chan plane : Int} {d : Dir} (hf : Faces t dev chan plane d) {m ns ew x y : Int} (hs : Sits t dev m ns ew x y)
    (hr : Room t ns ew x y d 1) (src : Int × Int) (mux : Option Mux) (noc : String) :
    ∃ r last b p, addFirstHop t src dev chan mux noc = .ok (firstSegments src dev mux noc r) ∧
      findPlane t dev chan = .ok (plane, d, last) ∧ firstReceiver t dev last d = .ok (b, p, d) ∧
      Sits t b m ns ew (moved t ns ew x y d).1 (moved t ns ew x y d).2 := by
  have hw0 := hw _ hf.1
  obtain ⟨p, hcore⟩ := hw0.cores _ hf.1
  obtain ⟨r, hl, _⟩ := lookup_key hcore
  -- the plane
  obtain ⟨e, he⟩ : ∃ e, t.planes.reverse.find? (fun e => decide (e.1.1 = dev ∧ e.2 = chan)) = some e := by
    rw [← Option.isSome_iff_exists, List.find?_isSome]
    exact ⟨_, List.mem_reverse.mpr hf.1, by simp⟩
  have he1 := List.find?_some he
  have he2 := List.mem_reverse.mp (List.mem_of_find?_eq_some he)
  have hek := hf.2 e he2 (by simpa using (of_decide_eq_true he1).1) (by simpa using (of_decide_eq_true he1).2)
  obtain ⟨l, hlast⟩ : ∃ l, t.planes.getLast? = some l := by
    cases h : t.planes.getLast? with
    | none => rw [List.getLast?_eq_none_iff] at h; rw [h] at he2; cases he2
    | some l => exact ⟨l, rfl⟩
  have hlm := List.mem_of_getLast? hlast
  have hwl := hw l hlm
  have hstep := room_step (t := t) (d := d) (n := 0) ⟨hs.x0, hs.x1, hs.y0, hs.y1⟩ le_rfl hr
  obtain ⟨b, h1, hm, hb⟩ := next_total hp ht hs hstep.1
  obtain ⟨_, ⟨c, hc⟩⟩ := hwl.ports hm
  obtain ⟨k, q, g1, g2⟩ := core_total hwl hc
  refine ⟨r, l.1.2.1, b, q, ?_, ?_, ?_, hb⟩
  · unfold addFirstHop
    rw [hl]
    cases mux <;> rfl
  · unfold findPlane
    rw [he, hlast]
    simp only
    rw [hek]
  · unfold firstReceiver
    rw [h1, bind_ok]
    simp only
    rw [g1]
    show (need (t.ethCoord.lookup k) >>= fun recv => _) = _
    rw [g2]
    rfl

/-- C74.  In a wired mesh whose lines do not turn, every event of a one-dimensional fabric has a path, provided that
there are `start + range - 1` places in its direction; it ends that many places away. -/
theorem C74_exists {t : Topology} (hp : Proper t) (ht : ¬ Turns t) (hw : ∀ e ∈ t.planes, Wired t e.1.2.1)
    {dev chan plane : Int} {d : Dir} (hf : Faces t dev chan plane d) {m ns ew x y : Int} (hs : Sits t dev m ns ew x y)
    {start range : Int} (hpos : 1 ≤ start + range - 1) (hr : Room t ns ew x y d (start + range - 1))
    (src : Int × Int) (dst : List Json) (mux : Option Mux) (noc : String) :
    ∃ path z, path1d t src dst dev chan start range mux noc = .ok (path, z) ∧
      Sits t z m ns ew (displaced t ns ew x y d (start + range - 1)).1 (displaced t ns ew x y d (start + range - 1)).2 := by
  have hin : Inside ns ew x y := ⟨hs.x0, hs.x1, hs.y0, hs.y1⟩
  obtain ⟨r, last, b, p, h1, h2, h3, hb⟩ := start_total hp ht hw hf hs (room_less hin (by omega) hpos hr) src mux noc
  have hr' := (room_step (t := t) (d := d) (n := start + range - 2) hin (by omega) (by
    rwa [show start + range - 2 + 1 = start + range - 1 by ring])).2
  obtain ⟨w, h4, h5⟩ := addHops_total hp ht (hw _ hf.1) (path := firstSegments src dev mux noc r) (recv := p)
    (start := start) (range := range) (parent := if mux.isNone then 0 else 1) (dir := d) (dst := dst) (term := true)
    (by simpa using hpos) hb (by simpa using hr')
  refine ⟨w.path, w.dev, ?_, ?_⟩
  · unfold path1d
    rw [h1, bind_ok, h2, bind_ok, h3, bind_ok]
    simp only
    rw [h4, bind_ok]
  · simp only [if_true] at h5
    rw [displaced_moved, show start + range - 2 + 1 = start + range - 1 by ring] at h5
    exact h5

theorem foldlM_branch (t : Topology) (plane : Int) (dst : List Json) (parent : Int) (s : Walk) (l : List Int) :
    Out.foldlM (branch t plane 0 0 dst parent) s l = .ok s := by
  induction l with
  | nil => rfl
  | cons k l ih => rw [foldlM_cons]; exact ih

/-- C76 (missing: multicasts with branches).  In a wired mesh, a multicast along a column or a row has a path, provided
that there are that many places in its direction: every chip of the line is written once, each segment continues the
one before. -/
theorem C76_multicast_exists_partial {t : Topology} (hp : Proper t) (ht : ¬ Turns t)
    (hw : ∀ e ∈ t.planes, Wired t e.1.2.1) {dev chan plane : Int} {d : Dir} (hf : Faces t dev chan plane d)
    {m nr nc x y : Int} (hs : Sits t dev m nr nc x y) {n : Int} (hn : 1 ≤ n) (hr : Room t nr nc x y d n)
    {ns e w : Int} (hh : match d with | .E => (ns, e, w) = (0, n, 0) | .W => (ns, e, w) = (0, 0, n) | _ => (ns, e, w) = (n, 0, 0))
    (src : Int × Int) (dst : List Json) (mux : Option Mux) (noc : String) :
    ∃ path z r line, path2d t src dst dev chan ns e w true mux noc = .ok (path, z) ∧
      path = firstSegments src dev mux noc r ++ line ∧ (line.length : Int) = n ∧
      ∀ (i : Nat) s, line[i]? = some s → s.writes = some dst ∧
        s.parent = (firstSegments src dev mux noc r).length + i - 1 ∧
        Sits t s.device m nr nc (displaced t nr nc x y d (i + 1)).1 (displaced t nr nc x y d (i + 1)).2 := by
  have hin : Inside nr nc x y := ⟨hs.x0, hs.x1, hs.y0, hs.y1⟩
  obtain ⟨r, last, b, p, h1, h2, h3, hb⟩ := start_total hp ht hw hf hs (room_less hin (by omega) hn hr) src mux noc
  have hr' := (room_step (t := t) (d := d) (n := n - 1) hin (by omega) (by rwa [show n - 1 + 1 = n by ring])).2
  obtain ⟨s, h4, h5⟩ := addHops_total hp ht (hw _ hf.1) (path := firstSegments src dev mux noc r) (recv := p)
    (start := 1) (range := n) (parent := if mux.isNone then 0 else 1) (dir := d) (dst := dst) (term := true)
    (by simp; omega) hb (by simpa [show 1 + n - 2 = n - 1 by ring] using hr')
  have hpar : (if mux.isNone then (0 : Int) else 1) = ((firstSegments src dev mux noc r).length : Int) - 1 := by
    cases mux <;> rfl
  have hpath : path2d t src dst dev chan ns e w true mux noc = .ok (s.path, s.dev) := by
    unfold path2d
    rw [h1, bind_ok, h2, bind_ok, h3, bind_ok]
    simp only [if_true]
    suffices hm : mcast2d t (firstSegments src dev mux noc r) (b, p, d) plane ns e w dst (if mux.isNone then 0 else 1) = .ok s by
      rw [hm, bind_ok]
    unfold mcast2d
    cases d with
    | E =>
      obtain ⟨rfl, rfl, rfl⟩ : ns = 0 ∧ e = n ∧ w = 0 := by simpa using hh
      rw [if_neg (by omega), if_neg (by omega), if_neg (by omega), if_pos (by omega)]
      exact h4
    | W =>
      obtain ⟨rfl, rfl, rfl⟩ : ns = 0 ∧ e = 0 ∧ w = n := by simpa using hh
      rw [if_neg (by omega), if_neg (by omega), if_neg (by omega), if_neg (by omega)]
      exact h4
    | N =>
      obtain ⟨rfl, rfl, rfl⟩ : ns = n ∧ e = 0 ∧ w = 0 := by simpa using hh
      rw [if_neg (by omega), if_pos (by omega), h4, bind_ok, foldlM_branch]
    | S =>
      obtain ⟨rfl, rfl, rfl⟩ : ns = n ∧ e = 0 ∧ w = 0 := by simpa using hh
      rw [if_neg (by omega), if_pos (by omega), h4, bind_ok, foldlM_branch]
  obtain ⟨line, g1, g2, g3⟩ := addHops_line hp (by omega) h4
  obtain ⟨g4, _⟩ := line_places hp ht g3 hb
  refine ⟨s.path, s.dev, r, line, hpath, g1, by omega, fun i s hi => ⟨?_, ?_, ?_⟩⟩
  · rw [line_writes g3 i s hi]
    unfold writesAt
    rw [if_pos (by omega)]
  · rw [line_parents g3 i s hi, hpar]
    omega
  · have := g4 i s hi
    rwa [displaced_moved] at this

/-- C76.  In a wired mesh, a unicast has a path, provided that there are places for its hops: first in the direction of
its channel, up to the chip where it turns, then in the last direction. -/
theorem C76_unicast_exists {t : Topology} (hp : Proper t) (ht : ¬ Turns t) (hw : ∀ e ∈ t.planes, Wired t e.1.2.1)
    {dev chan plane : Int} {d : Dir} (hf : Faces t dev chan plane d) {m nr nc x y : Int} (hs : Sits t dev m nr nc x y)
    {ns e w : Int} (hew : e = 0 ∨ w = 0) (hleg : 0 ≤ legHops d ns e w) (hlast : 1 ≤ lastHops d ns e w)
    (hr : Room t nr nc x y d (legHops d ns e w + 1))
    (hr' : Room t nr nc (displaced t nr nc x y d (legHops d ns e w + 1)).1
      (displaced t nr nc x y d (legHops d ns e w + 1)).2 (lastDir d e w) (lastHops d ns e w - 1))
    (src : Int × Int) (dst : List Json) (mux : Option Mux) (noc : String) :
    ∃ path z, path2d t src dst dev chan ns e w false mux noc = .ok (path, z) := by
  have hin : Inside nr nc x y := ⟨hs.x0, hs.x1, hs.y0, hs.y1⟩
  obtain ⟨r, last, b, p, h1, h2, h3, hb⟩ := start_total hp ht hw hf hs (room_less hin (by omega) (by omega) hr) src mux noc
  have hr1 := (room_step (t := t) (d := d) (n := legHops d ns e w) hin hleg hr).2
  suffices hu : ∃ s, unicast2d t (firstSegments src dev mux noc r) (b, p, d) plane ns e w dst (if mux.isNone then 0 else 1) = .ok s by
    obtain ⟨s, hu⟩ := hu
    refine ⟨s.path, s.dev, ?_⟩
    unfold path2d
    rw [h1, bind_ok, h2, bind_ok, h3, bind_ok]
    simp only [Bool.false_eq_true, if_false]
    rw [hu, bind_ok]
  have hz : ¬ (ns = 0 ∧ e = 0 ∧ w = 0) := by
    rintro ⟨rfl, rfl, rfl⟩
    unfold lastHops lastDir at hlast
    cases d <;> simp at hlast
  unfold unicast2d
  rw [if_neg hz, if_neg (by omega)]
  simp only
  by_cases hd : d = .E ∨ d = .W
  · rw [if_pos hd]
    have hl0 : legHops d ns e w = 0 := by
      unfold legHops
      rw [if_neg]
      rcases hd with rfl | rfl <;> simp
    have hld : lastDir d e w = d := by
      unfold lastDir
      rw [if_neg]
      rcases hd with rfl | rfl <;> simp
    have hlh : lastHops d ns e w = if d = .E then e else w := by
      unfold lastHops
      rw [hld]
      rcases hd with rfl | rfl <;> rfl
    rw [hl0, hld, hlh, zero_add, ← zero_add (1 : Int), ← displaced_moved, displaced_zero
      ⟨hb.x0, hb.x1, hb.y0, hb.y1⟩] at hr'
    rw [hlh] at hlast
    obtain ⟨s, hs, _⟩ := addHops_total hp ht (hw _ hf.1) (path := firstSegments src dev mux noc r) (recv := p)
      (start := if d = .E then e else w) (range := 1) (parent := if mux.isNone then 0 else 1) (dir := d) (dst := dst)
      (term := true) (by simpa using hlast) hb (by
        simp only [if_true]
        convert hr' using 1
        omega)
    exact ⟨s, hs⟩
  · rw [if_neg hd]
    have hd' : d = .N ∨ d = .S := by cases d <;> simp at hd ⊢
    by_cases h0 : e = 0 ∧ w = 0
    · -- no turn
      have hl0 : legHops d ns e w = 0 := by
        unfold legHops
        rw [if_neg (by omega)]
      have hld : lastDir d e w = d := by
        unfold lastDir
        rw [if_pos hd', if_neg (by omega), if_neg (by omega)]
      have hlh : lastHops d ns e w = ns := by
        unfold lastHops
        rw [hld]
        rcases hd' with rfl | rfl <;> rfl
      rw [hl0, hld, hlh, zero_add, ← zero_add (1 : Int), ← displaced_moved, displaced_zero
        ⟨hb.x0, hb.x1, hb.y0, hb.y1⟩] at hr'
      rw [hlh] at hlast
      obtain ⟨s, hs, _⟩ := addHops_total hp ht (hw _ hf.1) (path := firstSegments src dev mux noc r) (recv := p)
        (start := ns) (range := 1) (parent := if mux.isNone then 0 else 1) (dir := d) (dst := dst)
        (term := decide (e = 0 ∧ w = 0)) (by simp [h0]; omega) hb (by
          simp only [h0, and_self, decide_true, if_true]
          convert hr' using 1
          omega)
      rw [hs, bind_ok, if_neg (by omega), if_neg (by omega)]
      exact ⟨s, rfl⟩
    · have hl0 : legHops d ns e w = ns := by
        unfold legHops
        rw [if_pos ⟨hd', by omega⟩]
      rw [hl0] at hr' hr1 hleg
      obtain ⟨s, hs, hsit⟩ := addHops_total hp ht (hw _ hf.1) (path := firstSegments src dev mux noc r) (recv := p)
        (start := ns) (range := 1) (parent := if mux.isNone then 0 else 1) (dir := d) (dst := dst)
        (term := decide (e = 0 ∧ w = 0)) (by simp [h0]; omega) hb (by
          simp only [h0, decide_false, Bool.false_eq_true, if_false]
          convert hr1 using 1
          omega)
      simp only [h0, decide_false, Bool.false_eq_true, if_false] at hsit
      rw [displaced_moved, show ns + 1 - 1 + 1 = ns + 1 by ring] at hsit
      rw [hs, bind_ok]
      by_cases he : e = 0
      · have hwn : w ≠ 0 := fun h => h0 ⟨he, h⟩
        have hld : lastDir d e w = .W := by
          unfold lastDir
          rw [if_pos hd', if_neg (by omega), if_pos hwn]
        have hlh : lastHops d ns e w = w := by unfold lastHops; rw [hld]
        rw [hld, hlh] at hr'
        rw [hlh] at hlast
        rw [if_neg (by omega), if_pos hwn]
        obtain ⟨s', hs', _⟩ := addHops_total hp ht (hw _ hf.1) (path := s.path) (recv := s.recv)
          (start := w) (range := 1) (parent := (if mux.isNone then 0 else 1) + ns) (dir := .W) (dst := dst)
          (term := true) (by simpa using hlast) hsit (by
            simp only [if_true]
            convert hr' using 1
            omega)
        exact ⟨s', hs'⟩
      · have hld : lastDir d e w = .E := by
          unfold lastDir
          rw [if_pos hd', if_pos he]
        have hlh : lastHops d ns e w = e := by unfold lastHops; rw [hld]
        rw [hld, hlh] at hr'
        rw [hlh] at hlast
        rw [if_pos he]
        obtain ⟨s', hs', _⟩ := addHops_total hp ht (hw _ hf.1) (path := s.path) (recv := s.recv)
          (start := e) (range := 1) (parent := (if mux.isNone then 0 else 1) + ns) (dir := .E) (dst := dst)
          (term := true) (by simpa using hlast) hsit (by
            simp only [if_true]
            convert hr' using 1
            omega)
        exact ⟨s', hs'⟩

/-- The example board is wired. -/
theorem boards_wired (config cluster : String) : ∀ e ∈ (boards config cluster).planes, Wired (boards config cluster) e.1.2.1 := by
  have key : ∀ plane : Int, plane = 0 ∨ plane = 1 → Wired (boards config cluster) plane := by
    intro plane hpl
    have chip : ∀ {a m ns ew x y : Int} (d : Dir), Sits (boards config cluster) a m ns ew x y →
        ∃ c, ((a, plane, d), c) ∈ (boards config cluster).planes := by
      intro a m ns ew x y d hs
      have := hs.node
      simp only [boards, List.mem_map, List.mem_range] at this
      obtain ⟨k, hk, heq⟩ := this
      obtain ⟨rfl, _⟩ := Prod.mk.inj heq
      refine ⟨(match d with | .N => 0 | .S => 1 | .E => 2 | .W => 3) + plane * 4, ?_⟩
      simp only [boards, List.mem_flatMap, List.mem_range]
      refine ⟨k, hk, ?_⟩
      rcases hpl with rfl | rfl <;> cases d <;> simp
    constructor
    · rintro a b d d' ⟨m, ns, ew, x, y, h1, h2, _⟩
      exact ⟨chip d' h1, chip _ h2⟩
    · intro e he
      simp only [boards, List.mem_flatMap, List.mem_range] at he
      obtain ⟨k, _, he⟩ := he
      simp only [List.mem_cons, List.not_mem_nil, or_false] at he
      rcases he with rfl | rfl | rfl | rfl | rfl | rfl | rfl | rfl <;> simp [boards]
  intro e he
  simp only [boards, List.mem_flatMap, List.mem_range] at he
  obtain ⟨k, _, he⟩ := he
  simp only [List.mem_cons, List.not_mem_nil, or_false] at he
  rcases he with rfl | rfl | rfl | rfl | rfl | rfl | rfl | rfl <;> exact key _ (by simp)

/-- From chip 4 three chips to the east are written. -/
example : pathView (path2d (boards "FABRIC_2D" "N300") (5, 5) [] 4 6 0 3 0 true none "NOC_0") = some
    ([⟨4, (5, 5), some (3, 6), false, -1⟩, ⟨5, (4, 6), some (3, 6), true, 0⟩, ⟨6, (4, 6), some (3, 6), true, 1⟩,
      ⟨7, (4, 6), none, true, 2⟩], 7) := by
  decide +kernel

example : Faces (boards "FABRIC_2D" "N300") 4 6 1 .E := by
  refine ⟨by decide, ?_⟩
  show ∀ e ∈ (boards "FABRIC_2D" "N300").planes, _
  decide

example : Room (boards "FABRIC_2D" "N300") 2 4 0 1 .E 3 := .inr (by decide)

end NPE.Props
