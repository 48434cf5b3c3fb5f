import Verif.Proofs.Fabric

/-
Properties C57, C58, C74–C76: the script that expands fabric events.
-/

namespace NPE.Props
open Spec Out NPE.Fabric NPE.Spec.Fabric

/-! ### Sample topologies -/

/-- A mesh with 2 rows and 4 columns and two routing planes, chip `d` in place `d`. -/
def boards (config cluster : String) : Topology where
  meshShapes := [(0, (2, 4))]
  fabricConfig := config
  clusterType := cluster
  planes := (List.range 8).flatMap fun (d : Nat) => [(((d : Int), 0, .N), 0), ((d, 0, .S), 1), ((d, 0, .E), 2), ((d, 0, .W), 3),
    ((d, 1, .N), 4), ((d, 1, .S), 5), ((d, 1, .E), 6), ((d, 1, .W), 7)]
  nodes := (List.range 8).map fun (d : Nat) => ((d : Int), ((0 : Int), (d : Int)))
  ethCoord := [(0, (1, 0)), (1, (2, 0)), (2, (3, 0)), (3, (4, 0)), (4, (1, 6)), (5, (2, 6)), (6, (3, 6)), (7, (4, 6))]

theorem boards_proper (config cluster : String) : Proper (boards config cluster) where
  ids := by show (((List.range 8).map fun (d : Nat) => ((d : Int), ((0 : Int), (d : Int)))).map (·.1)).Nodup; decide
  places := by show (((List.range 8).map fun (d : Nat) => ((d : Int), ((0 : Int), (d : Int)))).map (·.2)).Nodup; decide
  meshes := by show (([(0, (2, 4))] : List (Int × (Int × Int))).map (·.1)).Nodup; decide
  placed := by
    intro e he
    simp only [boards, List.mem_map, List.mem_range] at he
    obtain ⟨d, hd, rfl⟩ := he
    exact ⟨2, 4, by simp [boards], by decide, by simp, by simp; omega⟩
  full := by
    intro m ns ew hm x y x0 x1 y0 y1
    simp only [boards, List.mem_singleton, Prod.mk.injEq] at hm
    obtain ⟨rfl, rfl, rfl⟩ := hm
    refine ⟨y * 4 + x, ?_⟩
    simp only [boards, List.mem_map, List.mem_range]
    exact ⟨(y * 4 + x).toNat, by omega, by simp; omega⟩

/-! ### C57: moves between chips -/

/-- C57.  A move goes one place further in the direction that is reported, through the opposite border where
these are connected; the direction only changes at the corners of one-dimensional fabrics on T3K. -/
theorem C57_place {t : Topology} (hp : Proper t) {dev dev' : Int} {d d' : Dir} (h : t.next dev d = .ok (dev', d')) :
    ∃ m ns ew x y, Sits t dev m ns ew x y ∧ Sits t dev' m ns ew (moved t ns ew x y d').1 (moved t ns ew x y d').2 ∧
      (d' ≠ d → Turns t ∧ Corner ns ew x y ∧ Leaves ns ew x y d) := by
  obtain ⟨m, ns, ew, x, y, hs, rfl, hs'⟩ := next_ok hp h
  refine ⟨m, ns, ew, x, y, hs, hs', fun hne => ⟨?_, ?_, ?_⟩⟩
  · by_contra hn; exact hne (turn_of_not hn ..)
  · by_contra hn; exact hne (turn_border hn)
  · by_contra hn; exact hne (turn_stay hn)

/-- C57, the turns: where a line turns, a move that would leave the mesh at a corner continues along the other
side of the mesh. -/
theorem C57_turn {t : Topology} (hp : Proper t) (ht : Turns t) {dev m ns ew x y : Int} (hs : Sits t dev m ns ew x y)
    (hc : Corner ns ew x y) (h2 : 2 ≤ ns) (h3 : 2 ≤ ew) {d : Dir} (hl : Leaves ns ew x y d) :
    ∃ dev' d', t.next dev d = .ok (dev', d') ∧ Perpendicular d d' ∧ ¬ Leaves ns ew x y d' ∧
      Sits t dev' m ns ew (x + (unit d').1) (y + (unit d').2) := by
  have hi : Inside ns ew x y := ⟨hs.x0, hs.x1, hs.y0, hs.y1⟩
  have hn := turn_corner ht hi hc (by omega) d
  have hin : Inside ns ew (x + (unit (t.turn ns ew x y d)).1) (y + (unit (t.turn ns ew x y d)).2) := by
    unfold Leaves at hn
    rwa [not_not] at hn
  have hm : moved t ns ew x y (t.turn ns ew x y d) =
      (x + (unit (t.turn ns ew x y d)).1, y + (unit (t.turn ns ew x y d)).2) := by
    unfold moved
    split
    · obtain ⟨a, b, c, e⟩ := hin
      rw [Int.emod_eq_of_lt a b, Int.emod_eq_of_lt c e]
    · rfl
  obtain ⟨dev', hd, hsd⟩ := next_inside hp hs (d := d) (by rw [hm]; exact hin)
  rw [hm] at hsd
  refine ⟨dev', _, hd, ?_, hn, hsd⟩
  clear hsd hd hm hin hn
  rw [turn_eq ht]
  unfold Corner at hc
  unfold Leaves Inside unit at hl
  unfold Inside at hi
  cases d <;> simp only at hl ⊢ <;> split_ifs <;> first | (exfalso; omega) | decide

/-- C57.  A move from a chip in a direction and then a move in the inverse of the reported direction return to
the same chip. -/
theorem C57_back {t : Topology} (hp : Proper t) {dev dev' : Int} {d d' : Dir} (h : t.next dev d = .ok (dev', d')) :
    ∃ d'', t.next dev' d'.inverse = .ok (dev, d'') := by
  obtain ⟨m, ns, ew, x, y, hs, hd, hs'⟩ := next_ok hp h
  have hx0 := hs.x0
  have hx1 := hs.x1
  have hy0 := hs.y0
  have hy1 := hs.y1
  have hi' : Inside ns ew (moved t ns ew x y d').1 (moved t ns ew x y d').2 := ⟨hs'.x0, hs'.x1, hs'.y0, hs'.y1⟩
  have key : moved t ns ew (moved t ns ew x y d').1 (moved t ns ew x y d').2
      (t.turn ns ew (moved t ns ew x y d').1 (moved t ns ew x y d').2 d'.inverse) = (x, y) := by
    by_cases hw : Wraps t
    · by_cases h1 : ns = 1 ∧ ew = 1
      · obtain ⟨rfl, rfl⟩ := h1
        unfold moved
        rw [if_pos hw]
        simp only [Int.emod_one, Prod.mk.injEq]
        omega
      · have hinv : moved t ns ew (moved t ns ew x y d').1 (moved t ns ew x y d').2 d'.inverse = (x, y) := by
          unfold moved
          simp only [if_pos hw]
          cases d' <;> simp only [unit, Dir.inverse, Prod.mk.injEq, add_zero,
              Int.emod_eq_of_lt hx0 hx1, Int.emod_eq_of_lt hy0 hy1, true_and, and_true, Int.emod_add_emod] <;>
            first
            | (rw [add_assoc, show (-1 : Int) + 1 = 0 from rfl, add_zero, Int.emod_eq_of_lt] <;> omega)
            | (rw [add_assoc, show (1 : Int) + -1 = 0 from rfl, add_zero, Int.emod_eq_of_lt] <;> omega)
        suffices t.turn ns ew (moved t ns ew x y d').1 (moved t ns ew x y d').2 d'.inverse = d'.inverse by
          rw [this]; exact hinv
        by_cases ht : Turns t
        · by_cases hl : Leaves ns ew x y d'
          · apply turn_border
            have hc : ¬ Corner ns ew x y := by
              intro hc
              rw [hd] at hl
              exact turn_corner ht ⟨hx0, hx1, hy0, hy1⟩ hc h1 d hl
            clear hd
            unfold moved Corner
            rw [if_pos hw]
            unfold Corner at hc
            unfold Leaves Inside unit at hl
            unfold unit
            cases d' <;> simp only [ring_succ hx0 hx1, ring_succ hy0 hy1, ring_pred hx0 hx1, ring_pred hy0 hy1,
                ring_same hx0 hx1, ring_same hy0 hy1] at hl ⊢ <;> split_ifs <;> omega
          · apply turn_stay
            clear hd hinv
            unfold Leaves at hl
            rw [not_not] at hl
            have hm : moved t ns ew x y d' = (x + (unit d').1, y + (unit d').2) := by
              unfold moved
              obtain ⟨a, b, c, e⟩ := hl
              rw [if_pos hw, Int.emod_eq_of_lt a b, Int.emod_eq_of_lt c e]
            rw [hm]
            unfold Leaves Inside
            cases d' <;> simp only [unit, Dir.inverse] <;> omega
        · exact turn_of_not ht ..
    · have hm : ∀ a b v, moved t ns ew a b v = (a + (unit v).1, b + (unit v).2) := by
        intro a b v
        unfold moved
        rw [if_neg hw]
      rw [turn_stay]
      · rw [hm, hm]
        cases d' <;> simp only [unit, Dir.inverse, Prod.mk.injEq] <;> omega
      · rw [hm]
        unfold Leaves Inside
        cases d' <;> simp only [unit, Dir.inverse] <;> omega
  obtain ⟨dev2, hn, hs2⟩ := next_inside hp hs' (d := d'.inverse) (by
    rw [key]; exact ⟨hx0, hx1, hy0, hy1⟩)
  rw [key] at hs2
  rw [sits_dev hp hs hs2]
  exact ⟨_, hn⟩

/-- C57.  A move is refused exactly when it would leave a mesh without connected borders, other than at a
corner where the line turns; all other moves of known chips succeed. -/
theorem C57_refused {t : Topology} (hp : Proper t) {dev m ns ew x y : Int} (hs : Sits t dev m ns ew x y)
    (h1 : Turns t → ¬ (ns = 1 ∧ ew = 1)) (d : Dir) :
    ((∃ r, t.next dev d = .ok r) ↔ ¬ (¬ Wraps t ∧ Leaves ns ew x y d ∧ ¬ (Turns t ∧ Corner ns ew x y))) ∧
    (t.next dev d = .std .pyProcessing ↔
      ¬ Wraps t ∧ Leaves ns ew x y d ∧ ¬ (Turns t ∧ Corner ns ew x y)) := by
  have hi : Inside ns ew x y := ⟨hs.x0, hs.x1, hs.y0, hs.y1⟩
  have key : Inside ns ew (moved t ns ew x y (t.turn ns ew x y d)).1 (moved t ns ew x y (t.turn ns ew x y d)).2 ↔
      ¬ (¬ Wraps t ∧ Leaves ns ew x y d ∧ ¬ (Turns t ∧ Corner ns ew x y)) := by
    by_cases hw : Wraps t
    · have e1 : (0 : Int) < ew := lt_of_le_of_lt hs.x0 hs.x1
      have e2 : (0 : Int) < ns := lt_of_le_of_lt hs.y0 hs.y1
      unfold moved
      rw [if_pos hw]
      exact iff_of_true ⟨Int.emod_nonneg _ (by omega), Int.emod_lt_of_pos _ e1, Int.emod_nonneg _ (by omega),
        Int.emod_lt_of_pos _ e2⟩ (fun h => h.1 hw)
    · have hm : Inside ns ew (moved t ns ew x y (t.turn ns ew x y d)).1 (moved t ns ew x y (t.turn ns ew x y d)).2 ↔
          ¬ Leaves ns ew x y (t.turn ns ew x y d) := by
        unfold moved
        rw [if_neg hw]
        unfold Leaves
        rw [not_not]
      rw [hm]
      by_cases hl : Leaves ns ew x y d
      · by_cases htc : Turns t ∧ Corner ns ew x y
        · exact iff_of_true (turn_corner htc.1 hi htc.2 (h1 htc.1) d) (fun h => h.2.2 htc)
        · have : t.turn ns ew x y d = d := by
            by_cases ht : Turns t
            · exact turn_border fun hc => htc ⟨ht, hc⟩
            · exact turn_of_not ht ..
          rw [this]
          exact iff_of_false (fun h => h hl) (fun h => h ⟨hw, hl, htc⟩)
      · rw [turn_stay hl]
        exact iff_of_true hl (fun h => hl h.2.1)
  rw [← not_iff_not (a := t.next dev d = .std .pyProcessing), ← key]
  by_cases hin : Inside ns ew (moved t ns ew x y (t.turn ns ew x y d)).1 (moved t ns ew x y (t.turn ns ew x y d)).2
  · obtain ⟨dev', hd, _⟩ := next_inside hp hs hin
    rw [hd]
    exact ⟨iff_of_true ⟨_, rfl⟩ hin, iff_of_true nofun hin⟩
  · have hr : t.next dev d = .std .pyProcessing := by
      rw [next_eq hp hs]
      simp only
      rw [if_neg hin]
    rw [hr]
    exact ⟨iff_of_false (fun ⟨_, h⟩ => absurd h nofun) hin, iff_of_false (fun h => h rfl) hin⟩

/-- Around the corner of a T3K line, back again, over the border of a ring, and a refused move. -/
example :
    (boards "FABRIC_1D" "T3K").next 3 .E = .ok (7, .S) ∧ (boards "FABRIC_1D" "T3K").next 7 .N = .ok (3, .N) ∧
    (boards "FABRIC_1D_RING" "N300").next 3 .E = .ok (0, .E) ∧
    (boards "FABRIC_1D" "N300").next 3 .E = .std .pyProcessing := by
  refine ⟨?_, ?_, ?_, ?_⟩ <;> decide +kernel

/-! ### C58: desynchronised events -/

/-- C58.  The filter keeps a prefix of the events; no two neighbours in it show a jump, and if anything is dropped
there is a jump from the last event kept to the first one dropped. -/
theorem C58_prefix (l : List (Int × Json)) :
    ∃ rest, l = removeDesync l ++ rest ∧
      (∀ p a b q, removeDesync l = p ++ a :: b :: q → ¬ Jump a.1 b.1) ∧
      (∀ b q, rest = b :: q → ∃ p a, removeDesync l = p ++ [a] ∧ Jump a.1 b.1) := by
  suffices ∀ (l : List (Int × Json)) (e : Int × Json), ∃ rest, l = cut e l ++ rest ∧
      (∀ p a b q, e :: cut e l = p ++ a :: b :: q → ¬ Jump a.1 b.1) ∧
      (∀ b q, rest = b :: q → ∃ p a, e :: cut e l = p ++ [a] ∧ Jump a.1 b.1) by
    cases l with
    | nil => exact ⟨[], rfl, fun p a b q h => by simp [removeDesync] at h, nofun⟩
    | cons e l =>
      obtain ⟨rest, h1, h2, h3⟩ := this l e
      refine ⟨rest, ?_, h2, h3⟩
      conv_lhs => rw [h1]
      rfl
  intro l
  induction l with
  | nil =>
    intro e
    refine ⟨[], rfl, ?_, nofun⟩
    intro p a b q h
    have := congrArg List.length h
    simp [cut] at this
    omega
  | cons x l ih =>
    intro e
    by_cases hj : Jump e.1 x.1
    · have hc : cut e (x :: l) = [] := by
        unfold cut
        exact if_pos hj
      rw [hc]
      refine ⟨x :: l, rfl, ?_, ?_⟩
      · intro p a b q h
        have := congrArg List.length h
        simp at this
        omega
      · intro b q h
        rw [List.cons.injEq] at h
        exact ⟨[], e, rfl, h.1 ▸ hj⟩
    · have hc : cut e (x :: l) = x :: cut x l := by
        conv_lhs => unfold cut
        exact if_neg hj
      obtain ⟨rest, h1, h2, h3⟩ := ih x
      rw [hc]
      refine ⟨rest, ?_, ?_, ?_⟩
      · conv_lhs => rw [h1]
        rfl
      · intro p a b q h
        cases p with
        | nil =>
          rw [List.nil_append, List.cons.injEq, List.cons.injEq] at h
          rw [← h.1, ← h.2.1]
          exact hj
        | cons c p =>
          rw [List.cons_append, List.cons.injEq] at h
          exact h2 p a b q h.2
      · intro b q h
        obtain ⟨p, a, h4, h5⟩ := h3 b q h
        exact ⟨e :: p, a, by rw [h4]; rfl, h5⟩

/-- C58.  Events without a jump are all kept. -/
theorem C58_all (l : List (Int × Json)) (h : ∀ p a b q, l = p ++ a :: b :: q → ¬ Jump a.1 b.1) :
    removeDesync l = l := by
  obtain ⟨rest, h1, _, h3⟩ := C58_prefix l
  cases rest with
  | nil => rw [List.append_nil] at h1; exact h1.symm
  | cons b q =>
    obtain ⟨p, a, h4, h5⟩ := h3 b q rfl
    rw [h4, List.append_assoc] at h1
    exact absurd h5 (h p a b q h1)

example : (removeDesync ([10, 900, 1500, 3000, 6001, 6002].map fun n => ((n : Int), Json.null))).map (·.1) =
    [10, 900, 1500, 3000] := by
  decide +kernel

/-! ### C74: lines of chips -/

/-- What `path1d` returns, as a line. -/
theorem path1d_ok {t : Topology} (hp : Proper t) {src : Int × Int} {dst : List Json} {dev chan start range z : Int}
    {mux : Option Mux} {noc : String} {path : List Segment} (hpos : 1 ≤ start + range - 1)
    (h : path1d t src dst dev chan start range mux noc = .ok (path, z)) :
    ∃ r plane d b d' p segs, (chan, r) ∈ t.ethCoord ∧ ((dev, plane, d), chan) ∈ t.planes ∧ Moves t dev d b d' ∧
      (∃ e, t.planes.getLast? = some e ∧ Port t b e.1.2.1 d'.inverse p) ∧
      path = firstSegments src dev mux noc r ++ segs ∧ (segs.length : Int) = start + range - 1 ∧
      Line t plane dst start ((firstSegments src dev mux noc r).length - 2) 1 b d' p segs z := by
  unfold path1d at h
  rw [bind_eq_ok] at h
  obtain ⟨path0, h0, h⟩ := h
  rw [bind_eq_ok] at h
  obtain ⟨q, hq, h⟩ := h
  rw [bind_eq_ok] at h
  obtain ⟨f, hf, h⟩ := h
  rw [bind_eq_ok] at h
  obtain ⟨w, hw, h⟩ := h
  have h := Out.ok.inj h
  simp only [Prod.mk.injEq] at h
  obtain ⟨rfl, rfl⟩ := h
  obtain ⟨r, hr, rfl⟩ := addFirstHop_ok h0
  obtain ⟨hq1, e, he, hq2⟩ := findPlane_ok hq
  obtain ⟨hf1, hf2⟩ := firstReceiver_ok hp hf
  obtain ⟨segs, hs1, hs2, hs3⟩ := addHops_line hp hpos hw
  refine ⟨r, _, _, _, _, _, segs, hr, hq1, hf1, ⟨e, he, hq2 ▸ hf2⟩, hs1, hs2, ?_⟩
  convert hs3 using 1
  cases mux <;> simp [firstSegments]

/-- C74.  The path of an event of a one-dimensional fabric consists of the segments on the sending chip and a line
of `start + range - 1` chips that begins with the neighbour behind the channel: each segment but the last forwards
over connected ethernet cores to the next chip, the last `range` chips write.  The destination is the last chip. -/
theorem C74_line {t : Topology} (hp : Proper t) {src : Int × Int} {dst : List Json} {dev chan start range z : Int}
    {mux : Option Mux} {noc : String} {path : List Segment} (hpos : 1 ≤ start + range - 1)
    (h : path1d t src dst dev chan start range mux noc = .ok (path, z)) :
    ∃ r plane d b d' p segs, (chan, r) ∈ t.ethCoord ∧ ((dev, plane, d), chan) ∈ t.planes ∧ Moves t dev d b d' ∧
      path = firstSegments src dev mux noc r ++ segs ∧ (segs.length : Int) = start + range - 1 ∧
      Line t plane dst start ((firstSegments src dev mux noc r).length - 2) 1 b d' p segs z := by
  obtain ⟨r, plane, d, b, d', p, segs, h1, h2, h3, _, h4, h5, h6⟩ := path1d_ok hp hpos h
  exact ⟨r, plane, d, b, d', p, segs, h1, h2, h3, h4, h5, h6⟩

theorem first_parents (src : Int × Int) (dev : Int) (mux : Option Mux) (noc : String) (r : Int × Int) (i : Nat)
    (s : Segment) (h : (firstSegments src dev mux noc r)[i]? = some s) :
    s.parent = i - 1 ∧ s.writes = none ∧ s.forward ≠ none ∧ s.device = dev := by
  cases mux with
  | none =>
    cases i with
    | zero => rw [← Option.some.inj h]; exact ⟨rfl, rfl, nofun, rfl⟩
    | succ i => exact absurd h nofun
  | some m =>
    match i, h with
    | 0, h => rw [← Option.some.inj h]; exact ⟨rfl, rfl, nofun, rfl⟩
    | 1, h => rw [← Option.some.inj h]; exact ⟨rfl, rfl, nofun, rfl⟩
    | i + 2, h => exact absurd h nofun

/-- C74.  Each segment of such a path names the segment before it as its parent, the first one none. -/
theorem C74_parents {t : Topology} (hp : Proper t) {src : Int × Int} {dst : List Json} {dev chan start range z : Int}
    {mux : Option Mux} {noc : String} {path : List Segment} (hpos : 1 ≤ start + range - 1)
    (h : path1d t src dst dev chan start range mux noc = .ok (path, z)) (i : Nat) (s : Segment)
    (hi : path[i]? = some s) : s.parent = i - 1 := by
  obtain ⟨r, plane, d, b, d', p, segs, h1, h2, h3, h4, h5, h6⟩ := C74_line hp hpos h
  rw [h4] at hi
  by_cases hlt : i < (firstSegments src dev mux noc r).length
  · rw [List.getElem?_append_left hlt] at hi
    exact (first_parents _ _ _ _ _ i s hi).1
  · rw [List.getElem?_append_right (by omega)] at hi
    rw [line_parents h6 _ s hi]
    omega

/-- C74.  Exactly the last `range` segments write, with the destinations of the event; exactly the last segment
does not forward. -/
theorem C74_writes {t : Topology} (hp : Proper t) {src : Int × Int} {dst : List Json} {dev chan start range z : Int}
    {mux : Option Mux} {noc : String} {path : List Segment} (hs : 1 ≤ start) (hr : 1 ≤ range)
    (h : path1d t src dst dev chan start range mux noc = .ok (path, z)) (i : Nat) (s : Segment)
    (hi : path[i]? = some s) :
    s.writes = (if (path.length : Int) - range ≤ i then some dst else none) ∧
    (s.forward = none ↔ i + 1 = path.length) := by
  obtain ⟨r, plane, d, b, d', p, segs, h1, h2, h3, h4, h5, h6⟩ := C74_line hp (by omega) h
  have hl : path.length = (firstSegments src dev mux noc r).length + segs.length := by rw [h4, List.length_append]
  rw [h4] at hi
  by_cases hlt : i < (firstSegments src dev mux noc r).length
  · rw [List.getElem?_append_left hlt] at hi
    obtain ⟨_, g1, g2, _⟩ := first_parents _ _ _ _ _ i s hi
    rw [g1, if_neg (by omega)]
    exact ⟨rfl, iff_of_false g2 (by omega)⟩
  · rw [List.getElem?_append_right (by omega)] at hi
    rw [line_writes h6 _ s hi, line_forward h6 _ s hi]
    refine ⟨?_, by omega⟩
    unfold writesAt
    by_cases hc : start ≤ 1 + ((i - (firstSegments src dev mux noc r).length : Nat) : Int)
    · rw [if_pos hc, if_pos (by omega)]
    · rw [if_neg hc, if_neg (by omega)]

/-- C74, where the line does not turn: hop number `k` is on the chip `k` places from the sender in the direction of
the channel, and the destination is the chip `start + range - 1` places away. -/
theorem C74_places {t : Topology} (hp : Proper t) (ht : ¬ Turns t) {src : Int × Int} {dst : List Json}
    {dev chan start range z : Int} {mux : Option Mux} {noc : String} {path : List Segment}
    (hpos : 1 ≤ start + range - 1) (h : path1d t src dst dev chan start range mux noc = .ok (path, z)) :
    ∃ m ns ew x y plane d, Sits t dev m ns ew x y ∧ ((dev, plane, d), chan) ∈ t.planes ∧
      (∀ (k : Nat) s, path[(if mux.isNone then 0 else 1) + k]? = some s →
        Sits t s.device m ns ew (displaced t ns ew x y d k).1 (displaced t ns ew x y d k).2) ∧
      Sits t z m ns ew (displaced t ns ew x y d (start + range - 1)).1
        (displaced t ns ew x y d (start + range - 1)).2 := by
  obtain ⟨r, plane, d, b, d', p, segs, h1, h2, h3, h4, h5, h6⟩ := C74_line hp hpos h
  obtain ⟨m, ns, ew, x, y, hs, hs', _⟩ := id h3
  obtain ⟨rfl, hb⟩ := moves_place hp ht h3 hs
  obtain ⟨g1, g2⟩ := line_places hp ht h6 hb
  refine ⟨m, ns, ew, x, y, plane, d', hs, h2, ?_, ?_⟩
  · intro k s hk
    have hfl : (firstSegments src dev mux noc r).length = (if mux.isNone then 0 else 1) + 1 := by
      cases mux <;> rfl
    rw [h4] at hk
    cases k with
    | zero =>
      rw [List.getElem?_append_left (by omega)] at hk
      rw [(first_parents _ _ _ _ _ _ s hk).2.2.2]
      simp only [Nat.cast_zero, displaced_zero (t := t) ⟨hs.x0, hs.x1, hs.y0, hs.y1⟩ d']
      exact hs
    | succ k =>
      rw [List.getElem?_append_right (by omega), hfl] at hk
      have := g1 k s (by rw [← hk]; congr 1; omega)
      rw [displaced_moved] at this
      push_cast
      exact this
  · rw [displaced_moved, h5, sub_add_cancel] at g2
    exact g2

/-- Chip, core, forwarding, writing and parent of a segment. -/
structure SegView where
  device : Int
  start : Int × Int
  forward : Option (Int × Int)
  writes : Bool
  parent : Int
  deriving DecidableEq

/-- The same of all segments of a path, and the destination. -/
def pathView (r : Out (List Segment × Int)) : Option (List SegView × Int) :=
  match r with
  | .ok (path, z) => some (path.map fun s => ⟨s.device, s.start, s.forward, s.writes.isSome, s.parent⟩, z)
  | _ => none

/-- From chip 1 eastwards on plane 1, the first write two chips away, three chips in all, around a corner. -/
example : pathView (path1d (boards "FABRIC_1D" "T3K") (5, 5) [] 1 6 2 2 (some ⟨7, 7, "NOC_1"⟩) "NOC_0") = some
    ([⟨1, (5, 5), some (7, 7), false, -1⟩, ⟨1, (7, 7), some (3, 6), false, 0⟩,
      ⟨2, (4, 6), some (3, 6), false, 1⟩, ⟨3, (4, 6), some (2, 6), true, 2⟩, ⟨7, (1, 6), none, true, 3⟩], 7) := by
  decide +kernel

/-! ### C75: the first ethernet core on the other side -/

/-- C75 (missing: more than one routing plane).  If all channels belong to one routing plane, the first segment on
the other side starts at the ethernet core connected to the channel. -/
theorem C75_partial {t : Topology} (hp : Proper t) {src : Int × Int} {dst : List Json} {dev chan start range z : Int}
    {mux : Option Mux} {noc : String} {path : List Segment} (hpos : 1 ≤ start + range - 1) (pl : Int)
    (hone : ∀ e ∈ t.planes, e.1.2.1 = pl)
    (h : path1d t src dst dev chan start range mux noc = .ok (path, z)) :
    ∃ d b d' s, ((dev, pl, d), chan) ∈ t.planes ∧ Moves t dev d b d' ∧
      path[if mux.isNone then 1 else 2]? = some s ∧ s.device = b ∧ Port t b pl d'.inverse s.start := by
  obtain ⟨r, plane, d, b, d', p, segs, h1, h2, h3, ⟨e, he, h7⟩, h4, h5, h6⟩ := path1d_ok hp hpos h
  have hpl := hone _ h2
  simp only at hpl
  rw [hpl] at h2
  rw [hone e (List.mem_of_getLast? he)] at h7
  have hfl : (firstSegments src dev mux noc r).length = if mux.isNone then 1 else 2 := by cases mux <;> rfl
  refine ⟨d, b, d', segs[0]'(by omega), h2, h3, ?_, ?_⟩
  · rw [h4, List.getElem?_append_right (by omega), hfl, Nat.sub_self, List.getElem?_eq_getElem (by omega)]
  · cases h6 with
    | last => exact ⟨rfl, h7⟩
    | hop => exact ⟨rfl, h7⟩

/-- C75, in general: the first segment on the other side starts at the ethernet core of the routing plane of the
last entry of the table, whatever the plane of the channel. -/
theorem C75_always {t : Topology} (hp : Proper t) {src : Int × Int} {dst : List Json} {dev chan start range z : Int}
    {mux : Option Mux} {noc : String} {path : List Segment} (hpos : 1 ≤ start + range - 1)
    (h : path1d t src dst dev chan start range mux noc = .ok (path, z)) :
    ∃ e d' s, t.planes.getLast? = some e ∧ path[if mux.isNone then 1 else 2]? = some s ∧
      Port t s.device e.1.2.1 d' s.start := by
  obtain ⟨r, plane, d, b, d', p, segs, h1, h2, h3, ⟨e, he, h7⟩, h4, h5, h6⟩ := path1d_ok hp hpos h
  have hfl : (firstSegments src dev mux noc r).length = if mux.isNone then 1 else 2 := by cases mux <;> rfl
  refine ⟨e, d'.inverse, segs[0]'(by omega), he, ?_, ?_⟩
  · rw [h4, List.getElem?_append_right (by omega), hfl, Nat.sub_self, List.getElem?_eq_getElem (by omega)]
  · cases h6 with
    | last => exact h7
    | hop => exact h7

/-- C75 does not hold for two routing planes: channel 2 of chip 0 (plane 0, eastwards) is connected to channel 3 of
chip 1 at core (4, 0), but the path continues at core (4, 6), which is connected to channel 6 of chip 0. -/
theorem C75_violated :
    pathView (path1d (boards "FABRIC_1D" "N300") (5, 5) [] 0 2 1 1 none "NOC_0") = some
      ([⟨0, (5, 5), some (3, 0), false, -1⟩, ⟨1, (4, 6), none, true, 0⟩], 1) ∧
    Port (boards "FABRIC_1D" "N300") 0 0 .E (3, 0) ∧ Port (boards "FABRIC_1D" "N300") 1 0 .W (4, 0) ∧
    ¬ Port (boards "FABRIC_1D" "N300") 1 0 .W (4, 6) := by
  refine ⟨by decide +kernel, ⟨2, ?_, ?_⟩, ⟨3, ?_, ?_⟩, ?_⟩
  · show (((0 : Int), (0 : Int), Dir.E), (2 : Int)) ∈ (boards "FABRIC_1D" "N300").planes; decide +kernel
  · show ((2 : Int), ((3 : Int), (0 : Int))) ∈ (boards "FABRIC_1D" "N300").ethCoord; decide +kernel
  · show (((1 : Int), (0 : Int), Dir.W), (3 : Int)) ∈ (boards "FABRIC_1D" "N300").planes; decide +kernel
  · show ((3 : Int), ((4 : Int), (0 : Int))) ∈ (boards "FABRIC_1D" "N300").ethCoord; decide +kernel
  · rintro ⟨chan, h1, h2⟩
    have : ∀ e ∈ (boards "FABRIC_1D" "N300").planes, e.1 = ((1 : Int), (0 : Int), Dir.W) →
        (e.2, ((4 : Int), (6 : Int))) ∉ (boards "FABRIC_1D" "N300").ethCoord := by decide +kernel
    exact this _ h1 rfl h2

/-- C75, errors: an event with a channel that no routing plane of the chip contains is meant to be reported as a
processing error, but the message uses an undefined name and a `NameError` is raised instead. -/
theorem C75_name {t : Topology} {src : Int × Int} {dst : List Json} {dev chan start range : Int}
    {mux : Option Mux} {noc : String} {r : Int × Int} (hc : t.ethCoord.lookup chan = some r)
    (hno : ∀ e ∈ t.planes, ¬ (e.1.1 = dev ∧ e.2 = chan)) :
    path1d t src dst dev chan start range mux noc = .std .pyName := by
  unfold path1d addFirstHop
  rw [hc]
  have hf : findPlane t dev chan = .std .pyName := by
    unfold findPlane
    rw [List.find?_eq_none.mpr]
    intro e he
    simpa using hno e (List.mem_reverse.mp he)
  cases mux <;> simp only [need, bind_ok] <;> rw [hf] <;> rfl

/-! ### C76: two-dimensional fabrics -/

/-- The common part of two-dimensional paths. -/
theorem path2d_ok {t : Topology} (hp : Proper t) {src : Int × Int} {dst : List Json} {dev chan ns e w z : Int}
    {mc : Bool} {mux : Option Mux} {noc : String} {path : List Segment}
    (h : path2d t src dst dev chan ns e w mc mux noc = .ok (path, z)) :
    ∃ r plane d f s, (chan, r) ∈ t.ethCoord ∧ ((dev, plane, d), chan) ∈ t.planes ∧ Moves t dev d f.1 f.2.2 ∧
      path = s.path ∧ z = s.dev ∧
      (if mc then
        mcast2d t (firstSegments src dev mux noc r) f plane ns e w dst ((firstSegments src dev mux noc r).length - 1)
       else
        unicast2d t (firstSegments src dev mux noc r) f plane ns e w dst
          ((firstSegments src dev mux noc r).length - 1)) = .ok s := by
  unfold path2d at h
  rw [bind_eq_ok] at h
  obtain ⟨path0, h0, h⟩ := h
  rw [bind_eq_ok] at h
  obtain ⟨q, hq, h⟩ := h
  rw [bind_eq_ok] at h
  obtain ⟨f, hf, h⟩ := h
  rw [bind_eq_ok] at h
  obtain ⟨s, hs, h⟩ := h
  have h := Out.ok.inj h
  simp only [Prod.mk.injEq] at h
  obtain ⟨r, hr, rfl⟩ := addFirstHop_ok h0
  obtain ⟨hq1, _⟩ := findPlane_ok hq
  obtain ⟨hf1, _⟩ := firstReceiver_ok hp hf
  refine ⟨r, q.1, q.2.1, f, s, hr, hq1, hf1, h.1.symm, h.2.symm, ?_⟩
  rw [← hs]
  cases mux <;> simp [firstSegments]

/-- C76.  The path of a unicast consists of the segments on the sending chip, a leg of segments that only
forward, up to the chip where it turns, and a line in the last direction. -/
theorem C76_unicast {t : Topology} (hp : Proper t) (ht : ¬ Turns t) {src : Int × Int} {dst : List Json}
    {dev chan ns e w z : Int} {mux : Option Mux} {noc : String} {path : List Segment}
    (h : path2d t src dst dev chan ns e w false mux noc = .ok (path, z)) :
    ∃ plane d, ((dev, plane, d), chan) ∈ t.planes ∧ (0 ≤ legHops d ns e w → 1 ≤ lastHops d ns e w →
      ∃ r a b p p' leg line, (chan, r) ∈ t.ethCoord ∧ Moves t dev d a d ∧
        path = firstSegments src dev mux noc r ++ leg ++ line ∧
        (leg.length : Int) = legHops d ns e w ∧ (line.length : Int) = lastHops d ns e w ∧
        Leg t plane ((firstSegments src dev mux noc r).length - 2) 1 a d p leg b d p' ∧
        Line t plane dst (lastHops d ns e w) ((firstSegments src dev mux noc r).length - 2 + legHops d ns e w) 1 b
          (lastDir d e w) p' line z) := by
  obtain ⟨r, plane, d, f, s, hr, hpl, hm, rfl, rfl, hu⟩ := path2d_ok hp h
  refine ⟨plane, d, hpl, fun hns hn => ?_⟩
  obtain ⟨m, nr, nc, x, y, hs, _⟩ := id hm
  obtain ⟨hfd, hfs⟩ := moves_place hp ht hm hs
  rw [hfd] at hm
  simp only [Bool.false_eq_true, if_false] at hu
  unfold unicast2d at hu
  rw [hfd] at hu
  by_cases h0 : ns = 0 ∧ e = 0 ∧ w = 0
  · rw [if_pos h0] at hu; exact absurd hu nofun
  rw [if_neg h0] at hu
  by_cases h1 : e ≠ 0 ∧ w ≠ 0
  · rw [if_pos h1] at hu; exact absurd hu nofun
  rw [if_neg h1] at hu
  by_cases h2 : d = .E ∨ d = .W
  · rw [if_pos h2] at hu
    have hd : lastDir d e w = d := by rcases h2 with rfl | rfl <;> rfl
    have hl : legHops d ns e w = 0 := by
      unfold legHops
      rw [if_neg]
      rcases h2 with rfl | rfl <;> simp
    have hh : lastHops d ns e w = if d = .E then e else w := by
      unfold lastHops
      rw [hd]
      rcases h2 with rfl | rfl <;> rfl
    rw [hh] at hn
    rw [hl, hd, hh]
    obtain ⟨line, g1, g2, g3⟩ := addHops_line hp (by omega) hu
    refine ⟨r, f.1, f.1, f.2.1, f.2.1, [], line, hr, hm, by rw [g1, List.append_nil], rfl, by omega, Leg.nil _ _ _ _, ?_⟩
    convert g3 using 1; omega
  rw [if_neg h2, bind_eq_ok] at hu
  obtain ⟨s1, hs1, hu⟩ := hu
  have hnsd : d = .N ∨ d = .S := by cases d <;> simp_all
  by_cases h3 : e = 0 ∧ w = 0
  · have hd : lastDir d e w = d := by
      unfold lastDir
      rw [if_pos hnsd, if_neg (by omega), if_neg (by omega)]
    have hl : legHops d ns e w = 0 := by
      unfold legHops
      rw [if_neg (by omega)]
    have hh : lastHops d ns e w = ns := by
      unfold lastHops
      rw [hd]
      rcases hnsd with rfl | rfl <;> rfl
    rw [if_neg (by omega), if_neg (by omega)] at hu
    rw [decide_eq_true h3] at hs1
    rw [← Out.ok.inj hu]
    rw [hh] at hn
    obtain ⟨line, g1, g2, g3⟩ := addHops_line hp (by omega) hs1
    rw [hl, hd, hh]
    refine ⟨r, f.1, f.1, f.2.1, f.2.1, [], line, hr, hm, by rw [g1, List.append_nil], rfl, by omega, Leg.nil _ _ _ _, ?_⟩
    convert g3 using 1; omega
  · have hl : legHops d ns e w = ns := by
      unfold legHops
      rw [if_pos ⟨hnsd, by omega⟩]
    rw [hl] at hns
    rw [show decide (e = 0 ∧ w = 0) = false by rw [decide_eq_false_iff_not]; exact h3] at hs1
    obtain ⟨leg, l1, l2, l3⟩ := addHops_leg hp hns hs1
    obtain ⟨ld, _, _⟩ := leg_places hp ht l3 hfs
    have hu' : addHops t s1.path s1.dev s1.recv (lastHops d ns e w) 1 (lastDir d e w) plane dst true
        (((firstSegments src dev mux noc r).length : Int) - 1 + ns) = .ok s := by
      by_cases h4 : e ≠ 0
      · have hd : lastDir d e w = .E := by
          unfold lastDir
          rw [if_pos hnsd, if_pos h4]
        unfold lastHops
        rw [if_pos h4] at hu
        rw [hd]
        exact hu
      · have hd : lastDir d e w = .W := by
          unfold lastDir
          rw [if_pos hnsd, if_neg h4, if_pos (by omega)]
        unfold lastHops
        rw [if_neg h4, if_pos (by omega)] at hu
        rw [hd]
        exact hu
    obtain ⟨line, g1, g2, g3⟩ := addHops_line hp (by omega) hu'
    rw [hl]
    refine ⟨r, f.1, s1.dev, f.2.1, s1.recv, leg, line, hr, hm, by rw [g1, l1], l2, by omega, ?_, ?_⟩
    · rw [ld] at l3
      convert l3 using 1; omega
    · convert g3 using 1; omega

/-- C76.  In all, a unicast that turns moves `ns + 1` places in its first direction and one place less than its
east or west hops in the other (the chip where it turns counts as one of these); one that does not turn moves by
its hops. -/
theorem C76_destination {t : Topology} (hp : Proper t) (ht : ¬ Turns t) {src : Int × Int} {dst : List Json}
    {dev chan ns e w z : Int} {mux : Option Mux} {noc : String} {path : List Segment} {m nr nc x y : Int}
    (hs : Sits t dev m nr nc x y) (h : path2d t src dst dev chan ns e w false mux noc = .ok (path, z)) :
    ∃ plane d, ((dev, plane, d), chan) ∈ t.planes ∧ (0 ≤ legHops d ns e w → 1 ≤ lastHops d ns e w →
      ∃ u v, Sits t z m nr nc u v ∧
        (u, v) = displaced t nr nc (displaced t nr nc x y d (legHops d ns e w + 1)).1
          (displaced t nr nc x y d (legHops d ns e w + 1)).2 (lastDir d e w) (lastHops d ns e w - 1)) := by
  obtain ⟨plane, d, hpl, hall⟩ := C76_unicast hp ht h
  refine ⟨plane, d, hpl, fun h0 h1 => ?_⟩
  obtain ⟨r, a, b, p, p', leg, line, _, hm, _, hl, hn, hleg, hline⟩ := hall h0 h1
  obtain ⟨_, ha⟩ := moves_place hp ht hm hs
  obtain ⟨_, _, hb⟩ := leg_places hp ht hleg ha
  rw [displaced_moved, hl] at hb
  obtain ⟨_, hz⟩ := line_places hp ht hline hb
  rw [hn] at hz
  exact ⟨_, _, hz, rfl⟩

/-- C76.  Each segment of a unicast names the segment before it as its parent; exactly the last one writes and
exactly the last one does not forward. -/
theorem C76_segments {t : Topology} (hp : Proper t) (ht : ¬ Turns t) {src : Int × Int} {dst : List Json}
    {dev chan ns e w z : Int} {mux : Option Mux} {noc : String} {path : List Segment}
    (h : path2d t src dst dev chan ns e w false mux noc = .ok (path, z)) :
    ∃ plane d, ((dev, plane, d), chan) ∈ t.planes ∧ (0 ≤ legHops d ns e w → 1 ≤ lastHops d ns e w →
      ∀ (i : Nat) s, path[i]? = some s → s.parent = i - 1 ∧
        s.writes = (if i + 1 = path.length then some dst else none) ∧ (s.forward = none ↔ i + 1 = path.length)) := by
  obtain ⟨plane, d, hpl, hall⟩ := C76_unicast hp ht h
  refine ⟨plane, d, hpl, fun h0 h1 i s hi => ?_⟩
  obtain ⟨r, a, b, p, p', leg, line, _, _, hpath, hl, hn, hleg, hline⟩ := hall h0 h1
  have hlen : path.length = (firstSegments src dev mux noc r).length + leg.length + line.length := by
    rw [hpath, List.length_append, List.length_append]
  rw [hpath] at hi
  by_cases hlt : i < (firstSegments src dev mux noc r).length + leg.length
  · rw [List.getElem?_append_left (by rw [List.length_append]; exact hlt)] at hi
    have hne : i + 1 ≠ path.length := by omega
    by_cases hlt2 : i < (firstSegments src dev mux noc r).length
    · rw [List.getElem?_append_left hlt2] at hi
      obtain ⟨g0, g1, g2, _⟩ := first_parents _ _ _ _ _ i s hi
      rw [g1, if_neg hne]
      exact ⟨g0, rfl, iff_of_false g2 hne⟩
    · rw [List.getElem?_append_right (by omega)] at hi
      have g0 := leg_parents hleg _ s hi
      obtain ⟨g1, g2⟩ := leg_writes hleg s (List.mem_of_getElem? hi)
      rw [g1, if_neg hne]
      exact ⟨by omega, rfl, iff_of_false g2 hne⟩
  · rw [List.getElem?_append_right (by rw [List.length_append]; omega), List.length_append] at hi
    have g0 := line_parents hline _ s hi
    rw [line_writes hline _ s hi, line_forward hline _ s hi]
    refine ⟨by omega, ?_, by omega⟩
    unfold writesAt
    have hlt3 := (List.getElem?_eq_some_iff.mp hi).1
    by_cases hc : lastHops d ns e w ≤
        1 + ((i - ((firstSegments src dev mux noc r).length + leg.length) : Nat) : Int)
    · rw [if_pos hc, if_pos (by omega)]
    · rw [if_neg hc, if_neg (by omega)]

/-- From chip 5 northwards, turning to the east on chip 1: chip 3 receives. -/
example : pathView (path2d (boards "FABRIC_2D" "N300") (5, 5) [] 5 4 0 3 0 false none "NOC_0") = some
    ([⟨5, (5, 5), some (1, 6), false, -1⟩, ⟨1, (2, 6), some (3, 6), false, 0⟩, ⟨2, (4, 6), some (3, 6), false, 1⟩,
      ⟨3, (4, 6), none, true, 2⟩], 3) := by
  decide +kernel

/-- C76 (missing: multicasts with branches).  A multicast along one line: every chip of the line is written once,
each segment continues the one before. -/
theorem C76_multicast_partial {t : Topology} (hp : Proper t) (ht : ¬ Turns t) {src : Int × Int} {dst : List Json}
    {dev chan ns z : Int} {mux : Option Mux} {noc : String} {path : List Segment} (hns : 1 ≤ ns)
    {m nr nc x y : Int} (hs : Sits t dev m nr nc x y)
    (h : path2d t src dst dev chan ns 0 0 true mux noc = .ok (path, z)) :
    ∃ r plane d line, ((dev, plane, d), chan) ∈ t.planes ∧ path = firstSegments src dev mux noc r ++ line ∧
      (line.length : Int) = ns ∧
      ∀ (i : Nat) s, line[i]? = some s → s.writes = some dst ∧
        s.parent = (firstSegments src dev mux noc r).length + i - 1 ∧
        Sits t s.device m nr nc (displaced t nr nc x y d (i + 1)).1 (displaced t nr nc x y d (i + 1)).2 := by
  obtain ⟨r, plane, d, f, s, hr, hpl, hm, rfl, rfl, hu⟩ := path2d_ok hp h
  obtain ⟨hfd, hfs⟩ := moves_place hp ht hm hs
  simp only [if_true] at hu
  unfold mcast2d at hu
  rw [if_neg (by omega), if_pos (by omega), bind_eq_ok] at hu
  obtain ⟨s1, hs1, hu⟩ := hu
  have hb : ∀ (l : List Int) (s : Walk), Out.foldlM (branch t plane 0 0 dst
      (((firstSegments src dev mux noc r).length : Int) - 1)) s l = .ok s := by
    intro l
    induction l with
    | nil => intro s; rfl
    | cons k l ih => intro s; rw [foldlM_cons]; exact ih s
  rw [hb] at hu
  rw [← Out.ok.inj hu]
  obtain ⟨line, g1, g2, g3⟩ := addHops_line hp (by omega) hs1
  rw [hfd] at g3
  obtain ⟨g4, _⟩ := line_places hp ht g3 hfs
  refine ⟨r, plane, d, line, hpl, g1, by omega, fun i s hi => ⟨?_, ?_, ?_⟩⟩
  · rw [line_writes g3 i s hi]
    unfold writesAt
    rw [if_pos (by omega)]
  · rw [line_parents g3 i s hi]
    omega
  · have := g4 i s hi
    rwa [displaced_moved] at this

/-- C76 does not hold for a multicast with branches.  From chip 4, one row to the north and two to the east, chips 0,
1 and 2 should be written.  In the path the branch begins on chip 0 itself, which is written twice, and chip 2 is not
written. -/
theorem C76_violated :
    pathView (path2d (boards "FABRIC_2D" "N300") (5, 5) [] 4 4 1 2 0 true none "NOC_0") = some
      ([⟨4, (5, 5), some (1, 6), false, -1⟩, ⟨0, (2, 6), none, true, 0⟩, ⟨0, (2, 6), some (3, 6), true, 1⟩,
        ⟨1, (4, 6), none, true, 2⟩], 1) := by
  decide +kernel

/-- C76 does not hold for a multicast over several rows: the branch of the second row begins where the branch of the
first row ended, which itself began in the last row; its segments name wrong parents.  (A mesh with connected
borders; from chip 4, two rows to the north, one column to the east and one to the west.) -/
theorem C76_violated_rows :
    pathView (path2d (boards "FABRIC_2D_TORUS" "N300") (5, 5) [] 4 4 2 2 2 true none "NOC_0") = some
      ([⟨4, (5, 5), some (1, 6), false, -1⟩, ⟨0, (2, 6), some (1, 6), true, 0⟩, ⟨4, (2, 6), none, true, 1⟩,
        ⟨4, (2, 6), some (3, 6), true, 1⟩, ⟨5, (4, 6), none, true, 2⟩,
        ⟨5, (4, 6), some (4, 6), true, 1⟩, ⟨4, (3, 6), none, true, 2⟩,
        ⟨4, (3, 6), some (3, 6), true, 2⟩, ⟨5, (4, 6), none, true, 3⟩,
        ⟨5, (4, 6), some (4, 6), true, 2⟩, ⟨4, (3, 6), none, true, 3⟩], 4) := by
  decide +kernel

/-- The path only grows. -/
theorem addHops_grows {t : Topology} {path : List Segment} {dev : Int} {recv : Int × Int}
    {start range plane parent : Int} {dir : Dir} {dst : List Json} {term : Bool} {w : Walk}
    (h : addHops t path dev recv start range dir plane dst term parent = .ok w) : ∃ segs, w.path = path ++ segs := by
  unfold addHops at h
  suffices ∀ (l : List Int) (a : HopArgs) (w w' : Walk), Out.foldlM (hopBody t a) w l = .ok w' →
      ∃ segs, w'.path = w.path ++ segs from this _ _ _ _ h
  intro l a
  induction l with
  | nil => intro w w' h; rw [← Out.ok.inj h]; exact ⟨[], by simp⟩
  | cons k l ih =>
    intro w w' h
    rw [foldlM_cons, bind_eq_ok] at h
    obtain ⟨w1, h1, h⟩ := h
    obtain ⟨segs, hs⟩ := ih w1 w' h
    unfold hopBody at h1
    simp only at h1
    split at h1
    · rw [bind_eq_ok] at h1
      obtain ⟨f, _, h1⟩ := h1
      rw [hs, ← Out.ok.inj h1, List.append_assoc]
      exact ⟨_, rfl⟩
    · rw [hs, ← Out.ok.inj h1, List.append_assoc]
      exact ⟨_, rfl⟩

theorem branch_grows {t : Topology} {plane e w parent i : Int} {dst : List Json} {s s' : Walk}
    (h : branch t plane e w dst parent s i = .ok s') : ∃ segs, s'.path = s.path ++ segs := by
  unfold branch at h
  rw [bind_eq_ok] at h
  obtain ⟨s1, h1, h⟩ := h
  have g1 : ∃ segs, s1.path = s.path ++ segs := by
    split at h1
    · rw [← Out.ok.inj h1]; exact ⟨[], by simp⟩
    · exact addHops_grows h1
  have g2 : ∃ segs, s'.path = s1.path ++ segs := by
    split at h
    · rw [← Out.ok.inj h]; exact ⟨[], by simp⟩
    · exact addHops_grows h
  obtain ⟨a, ha⟩ := g1
  obtain ⟨b, hb⟩ := g2
  exact ⟨a ++ b, by rw [hb, ha, List.append_assoc]⟩

/-- C76 is violated by every multicast with a branch to the east: some chip is written twice. -/
theorem C76_twice {t : Topology} (hp : Proper t) {src : Int × Int} {dst : List Json} {dev chan ns e w z : Int}
    {mux : Option Mux} {noc : String} {path : List Segment} (hns : 1 ≤ ns) (he : 1 ≤ e)
    (h : path2d t src dst dev chan ns e w true mux noc = .ok (path, z)) :
    ∃ (i j : Nat) (s s' : Segment), i < j ∧ path[i]? = some s ∧ path[j]? = some s' ∧ s.device = s'.device ∧
      s.writes = some dst ∧ s'.writes = some dst := by
  obtain ⟨r, plane, d, f, s, hr, hpl, hm, rfl, rfl, hu⟩ := path2d_ok hp h
  simp only [if_true] at hu
  unfold mcast2d at hu
  rw [if_neg (by omega), if_pos (by omega), bind_eq_ok] at hu
  obtain ⟨s1, hs1, hu⟩ := hu
  obtain ⟨trunk, g1, g2, g3⟩ := addHops_line hp (by omega) hs1
  obtain ⟨n, hn⟩ : ∃ n : Nat, ns.toNat = n + 1 := ⟨ns.toNat - 1, by omega⟩
  rw [hops_eq, hn, hopsFrom_succ, foldlM_cons, bind_eq_ok] at hu
  obtain ⟨s2, hs2, hu⟩ := hu
  have hgrow : ∃ segs, s.path = s2.path ++ segs := by
    suffices ∀ (l : List Int) (a b : Walk), Out.foldlM (branch t plane e w dst
        (((firstSegments src dev mux noc r).length : Int) - 1)) a l = .ok b → ∃ segs, b.path = a.path ++ segs from
      this _ _ _ hu
    intro l
    induction l with
    | nil => intro a b h; rw [← Out.ok.inj h]; exact ⟨[], by simp⟩
    | cons k l ih =>
      intro a b h
      rw [foldlM_cons, bind_eq_ok] at h
      obtain ⟨c, hc, h⟩ := h
      obtain ⟨x, hx⟩ := branch_grows hc
      obtain ⟨y, hy⟩ := ih c b h
      exact ⟨x ++ y, by rw [hy, hx, List.append_assoc]⟩
  unfold branch at hs2
  rw [if_neg (by omega), bind_eq_ok] at hs2
  obtain ⟨s3, hs3, hs2⟩ := hs2
  obtain ⟨br, b1, b2, b3⟩ := addHops_line hp (by omega) hs3
  have hgrow2 : ∃ segs, s2.path = s3.path ++ segs := by
    split at hs2
    · rw [← Out.ok.inj hs2]; exact ⟨[], by simp⟩
    · exact addHops_grows hs2
  obtain ⟨x, hx⟩ := hgrow
  obtain ⟨y, hy⟩ := hgrow2
  have hlast : ∀ {k a d p segs z}, Line t plane dst 1 (((firstSegments src dev mux noc r).length : Int) - 1 - 1) k a d p segs z →
      ∃ l, ∃ (hl : segs[segs.length - 1]? = some l), l.device = z := by
    intro k a d p segs z h
    induction h with
    | last => exact ⟨_, rfl, rfl⟩
    | hop _ _ _ hl ih =>
      obtain ⟨l, h1, h2⟩ := ih
      have := line_length hl
      obtain ⟨n, hn⟩ := Nat.exists_eq_succ_of_ne_zero (Nat.ne_of_gt this)
      refine ⟨l, ?_, h2⟩
      rw [hn] at h1
      rw [List.length_cons, hn]
      exact h1
  obtain ⟨l, hl1, hl2⟩ := hlast g3
  have hhead : ∀ {k a d p segs z par}, Line t plane dst 1 par k a d p segs z →
      ∃ l', segs[0]? = some l' ∧ l'.device = a ∧ l'.writes = writesAt 1 k dst := by
    intro k a d p segs z par h
    cases h with
    | last => exact ⟨_, rfl, rfl, rfl⟩
    | hop => exact ⟨_, rfl, rfl, rfl⟩
  have hbr : ∃ l', br[0]? = some l' ∧ l'.device = s1.dev ∧ l'.writes = some dst := hhead b3
  obtain ⟨l', hb1, hb2, hb3⟩ := hbr
  have htl := line_length g3
  have hpath : s.path = firstSegments src dev mux noc r ++ trunk ++ (br ++ (y ++ x)) := by
    rw [hx, hy, b1, g1]
    simp only [List.append_assoc]
  refine ⟨(firstSegments src dev mux noc r).length + (trunk.length - 1),
    (firstSegments src dev mux noc r).length + trunk.length, l, l', by omega, ?_, ?_, ?_, ?_, hb3⟩
  · rw [hpath, List.getElem?_append_left (by rw [List.length_append]; omega), List.getElem?_append_right (by omega),
      Nat.add_sub_cancel_left]
    exact hl1
  · rw [hpath, List.getElem?_append_right (by rw [List.length_append]), List.length_append, Nat.sub_self,
      List.getElem?_append_left (by have := (List.getElem?_eq_some_iff.mp hb1).1; omega)]
    exact hb1
  · rw [hl2, hb2]
  · rw [line_writes g3 _ l hl1]
    unfold writesAt
    rw [if_pos (by omega)]

end NPE.Props
