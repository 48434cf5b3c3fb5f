import Verif.Spec.Fabric
import Verif.Proofs.Sort
import Verif.Proofs.Scan

/-
Lemmas about the fabric script.
-/

namespace NPE
open NPE.Fabric NPE.Spec.Fabric Out

theorem lookup_of_key {α β : Type} [BEq α] [LawfulBEq α] {l : List (α × β)} (h : (l.map (·.1)).Nodup) {k : α} {v : β}
    (hm : (k, v) ∈ l) : l.lookup k = some v := by
  induction l with
  | nil => simp at hm
  | cons e l ih =>
    rw [List.map_cons, List.nodup_cons] at h
    rcases List.mem_cons.mp hm with rfl | hm
    · simp
    · rw [List.lookup_cons]
      have : (k == e.1) = false := by
        rw [beq_eq_false_iff_ne]
        rintro rfl
        exact h.1 (List.mem_map.mpr ⟨_, hm, rfl⟩)
      rw [this]
      exact ih h.2 hm

theorem mem_of_key {α β : Type} [BEq α] [LawfulBEq α] {l : List (α × β)} {k : α} {v : β} (h : l.lookup k = some v) :
    (k, v) ∈ l := by
  induction l with
  | nil => simp at h
  | cons e l ih =>
    rw [List.lookup_cons] at h
    split at h
    · rename_i hb
      rw [beq_iff_eq] at hb
      rw [Option.some.injEq] at h
      subst hb h
      exact List.mem_cons_self
    · exact List.mem_cons_of_mem _ (ih h)

theorem deviceOf_eq {t : Topology} (hp : Proper t) {dev : Int} {n : Int × Int} (h : (dev, n) ∈ t.nodes) :
    t.deviceOf n = some dev := by
  unfold Topology.deviceOf
  cases hf : t.nodes.reverse.find? fun e => decide (e.2 = n) with
  | none =>
    rw [List.find?_eq_none] at hf
    exact absurd (decide_eq_true rfl) (hf (dev, n) (List.mem_reverse.mpr h))
  | some e =>
    have h1 := List.find?_some hf
    have h2 := List.mem_reverse.mp (List.mem_of_find?_eq_some hf)
    simp only [decide_eq_true_eq] at h1
    have : e = (dev, n) := by
      apply List.inj_on_of_nodup_map hp.places h2 h
      exact h1
    rw [this]
    rfl

/-- The same place determines the chip and the other way round. -/
theorem sits_place {t : Topology} (hp : Proper t) {dev m ns ew x y m' ns' ew' x' y' : Int}
    (h : Sits t dev m ns ew x y) (h' : Sits t dev m' ns' ew' x' y') :
    m = m' ∧ ns = ns' ∧ ew = ew' ∧ x = x' ∧ y = y' := by
  have h1 : ((dev, (m, y * ew + x)) : Int × (Int × Int)) = (dev, (m', y' * ew' + x')) :=
    List.inj_on_of_nodup_map hp.ids h.node h'.node rfl
  simp only [Prod.mk.injEq, true_and] at h1
  obtain ⟨rfl, h2⟩ := h1
  have h3 : ((m, (ns, ew)) : Int × (Int × Int)) = (m, (ns', ew')) :=
    List.inj_on_of_nodup_map hp.meshes h.shape h'.shape rfl
  simp only [Prod.mk.injEq, true_and] at h3
  obtain ⟨rfl, rfl⟩ := h3
  have hx : x = x' := by
    have a := congrArg (· % ew) h2
    simp only [add_comm (_ * _), Int.add_mul_emod_self_right] at a
    rwa [Int.emod_eq_of_lt h.x0 h.x1, Int.emod_eq_of_lt h'.x0 h'.x1] at a
  subst hx
  refine ⟨rfl, rfl, rfl, rfl, ?_⟩
  have hpos : (0 : Int) < ew := lt_of_le_of_lt h.x0 h.x1
  have : y * ew = y' * ew := by omega
  exact Int.eq_of_mul_eq_mul_right (by omega) this

theorem sits_dev {t : Topology} (hp : Proper t) {dev dev' m ns ew ns' ew' x y : Int} (h : Sits t dev m ns ew x y)
    (h' : Sits t dev' m ns' ew' x y) : dev = dev' := by
  have h3 : ((m, (ns, ew)) : Int × (Int × Int)) = (m, (ns', ew')) :=
    List.inj_on_of_nodup_map hp.meshes h.shape h'.shape rfl
  simp only [Prod.mk.injEq, true_and] at h3
  obtain ⟨rfl, rfl⟩ := h3
  have := List.inj_on_of_nodup_map hp.places h.node h'.node rfl
  exact congrArg Prod.fst this

/-- Every chip has a place. -/
theorem sits_exists {t : Topology} (hp : Proper t) {dev : Int} {n : Int × Int} (h : (dev, n) ∈ t.nodes) :
    ∃ ns ew x y, Sits t dev n.1 ns ew x y := by
  obtain ⟨ns, ew, hs, h0, h1, h2⟩ := hp.placed _ h
  refine ⟨ns, ew, n.2 % ew, n.2 / ew, ?_, hs, Int.emod_nonneg _ (by omega), Int.emod_lt_of_pos _ h0,
    Int.ediv_nonneg h1 (by omega), Int.ediv_lt_of_lt_mul h0 h2⟩
  rw [mul_comm, Int.mul_ediv_add_emod]
  exact h

theorem shift_eq (x y : Int) (d : Dir) : Topology.shift x y d = (x + (unit d).1, y + (unit d).2) := by
  cases d <;> simp [Topology.shift, unit] <;> omega

theorem wrap_shift (t : Topology) (ns ew x y : Int) (d : Dir) :
    t.wrap ns ew (Topology.shift x y d) = moved t ns ew x y d := by
  unfold Topology.wrap moved Wraps
  rw [shift_eq]
  simp

/-- A move, by the place of the chip. -/
theorem next_eq {t : Topology} (hp : Proper t) {dev m ns ew x y : Int} (h : Sits t dev m ns ew x y) (d : Dir) :
    t.next dev d =
      let d' := t.turn ns ew x y d
      let p := moved t ns ew x y d'
      if Inside ns ew p.1 p.2 then
        need (t.deviceOf (m, p.2 * ew + p.1)) >>= fun dev => .ok (dev, d')
      else .std .pyProcessing := by
  have hx0 := h.x0
  have hx1 := h.x1
  have hy0 := h.y0
  have hy1 := h.y1
  unfold Topology.next
  rw [lookup_of_key hp.ids h.node]
  show (need (t.meshShapes.lookup m) >>= _) = _
  rw [lookup_of_key hp.meshes h.shape]
  show t.stepFrom m (y * ew + x) ns ew d = _
  unfold Topology.stepFrom
  rw [if_neg (by omega)]
  have hn0 : 0 ≤ y * ew + x := by
    have := Int.mul_nonneg hy0 (show (0 : Int) ≤ ew by omega)
    omega
  have hn1 : y * ew + x < ns * ew := by
    have : (y + 1) * ew ≤ ns * ew := Int.mul_le_mul_of_nonneg_right (by omega) (by omega)
    rw [add_mul, one_mul] at this
    omega
  rw [if_neg (by omega)]
  have hx : (y * ew + x) % ew = x := by
    rw [add_comm, Int.add_mul_emod_self_right, Int.emod_eq_of_lt hx0 hx1]
  have hy : (y * ew + x) / ew = y := by
    rw [add_comm, Int.add_mul_ediv_right _ _ (by omega), Int.ediv_eq_zero_of_lt hx0 hx1, zero_add]
  simp only [hx, hy, wrap_shift]
  by_cases hi : Inside ns ew (moved t ns ew x y (t.turn ns ew x y d)).1 (moved t ns ew x y (t.turn ns ew x y d)).2
  · rw [if_pos hi, if_neg]
    unfold Inside at hi
    omega
  · rw [if_neg hi, if_pos]
    unfold Inside at hi
    omega

theorem next_inside {t : Topology} (hp : Proper t) {dev m ns ew x y : Int} (h : Sits t dev m ns ew x y) {d : Dir}
    (hi : Inside ns ew (moved t ns ew x y (t.turn ns ew x y d)).1 (moved t ns ew x y (t.turn ns ew x y d)).2) :
    ∃ dev', t.next dev d = .ok (dev', t.turn ns ew x y d) ∧
      Sits t dev' m ns ew (moved t ns ew x y (t.turn ns ew x y d)).1 (moved t ns ew x y (t.turn ns ew x y d)).2 := by
  obtain ⟨i0, i1, i2, i3⟩ := hi
  obtain ⟨dev', hd⟩ := hp.full m ns ew h.shape _ _ i0 i1 i2 i3
  refine ⟨dev', ?_, hd, h.shape, i0, i1, i2, i3⟩
  rw [next_eq hp h]
  simp only
  rw [if_pos ⟨i0, i1, i2, i3⟩, deviceOf_eq hp hd]
  rfl

theorem next_ok {t : Topology} (hp : Proper t) {dev dev' : Int} {d d' : Dir} (h : t.next dev d = .ok (dev', d')) :
    ∃ m ns ew x y, Sits t dev m ns ew x y ∧ d' = t.turn ns ew x y d ∧
      Sits t dev' m ns ew (moved t ns ew x y d').1 (moved t ns ew x y d').2 := by
  have hm : ∃ n, (dev, n) ∈ t.nodes := by
    unfold Topology.next need at h
    cases hl : t.nodes.lookup dev with
    | none => rw [hl] at h; exact absurd h nofun
    | some n => exact ⟨n, mem_of_key hl⟩
  obtain ⟨n, hn⟩ := hm
  obtain ⟨ns, ew, x, y, hs⟩ := sits_exists hp hn
  by_cases hi : Inside ns ew (moved t ns ew x y (t.turn ns ew x y d)).1 (moved t ns ew x y (t.turn ns ew x y d)).2
  · obtain ⟨b, hb, hbs⟩ := next_inside hp hs hi
    rw [h] at hb
    have := Out.ok.inj hb
    simp only [Prod.mk.injEq] at this
    obtain ⟨rfl, rfl⟩ := this
    exact ⟨_, _, _, _, _, hs, rfl, hbs⟩
  · rw [next_eq hp hs] at h
    simp only at h
    rw [if_neg hi] at h
    exact absurd h nofun

/-- Steps around a ring. -/
theorem ring_succ {x n : Int} (h0 : 0 ≤ x) (h1 : x < n) : (x + 1) % n = if x + 1 = n then 0 else x + 1 := by
  split
  · rename_i h; rw [h, Int.emod_self]
  · rw [Int.emod_eq_of_lt] <;> omega

theorem ring_pred {x n : Int} (h0 : 0 ≤ x) (h1 : x < n) : (x + -1) % n = if x = 0 then n - 1 else x - 1 := by
  split
  · rename_i h
    rw [h, zero_add, ← Int.add_emod_right, Int.emod_eq_of_lt] <;> omega
  · rw [Int.emod_eq_of_lt] <;> omega

theorem ring_same {x n : Int} (h0 : 0 ≤ x) (h1 : x < n) : (x + 0) % n = x := by
  rw [add_zero, Int.emod_eq_of_lt h0 h1]

theorem turns_iff (t : Topology) :
    ((t.fabricConfig = "FABRIC_1D_RING" ∨ t.fabricConfig = "FABRIC_1D") ∧ t.clusterType = "T3K") ↔ Turns t := by
  unfold Turns
  simp only [List.mem_cons, List.not_mem_nil, or_false]
  tauto

theorem turn_of_not {t : Topology} (h : ¬ Turns t) (ns ew x y : Int) (d : Dir) : t.turn ns ew x y d = d := by
  unfold Topology.turn
  rw [if_neg (by rw [turns_iff]; exact h)]

/-- The corner turns, by the place. -/
theorem turn_eq {t : Topology} (h : Turns t) (ns ew x y : Int) (d : Dir) : t.turn ns ew x y d =
    (let d := if x = 0 ∧ y = 0 then (match d with | .W => .S | .N => .E | d => d) else d
     let d := if x = ew - 1 ∧ y = 0 then (match d with | .E => .S | .N => .W | d => d) else d
     let d := if x = 0 ∧ y = ns - 1 then (match d with | .W => .N | .S => .E | d => d) else d
     if x = ew - 1 ∧ y = ns - 1 then (match d with | .E => .N | .S => .W | d => d) else d) := by
  unfold Topology.turn
  rw [if_pos (by rw [turns_iff]; exact h)]
  have h1 : ∀ d : Dir, (if (if d = .W then .S else d) = Dir.N then Dir.E else (if d = .W then .S else d)) =
      (match d with | .W => .S | .N => .E | d => d) := by intro d; cases d <;> rfl
  have h2 : ∀ d : Dir, (if (if d = .E then .S else d) = Dir.N then Dir.W else (if d = .E then .S else d)) =
      (match d with | .E => .S | .N => .W | d => d) := by intro d; cases d <;> rfl
  have h3 : ∀ d : Dir, (if (if d = .W then .N else d) = Dir.S then Dir.E else (if d = .W then .N else d)) =
      (match d with | .W => .N | .S => .E | d => d) := by intro d; cases d <;> rfl
  have h4 : ∀ d : Dir, (if (if d = .E then .N else d) = Dir.S then Dir.W else (if d = .E then .N else d)) =
      (match d with | .E => .N | .S => .W | d => d) := by intro d; cases d <;> rfl
  simp only [h1, h2, h3, h4]

/-- A move that stays in the mesh does not turn. -/
theorem turn_stay {t : Topology} {ns ew x y : Int} {d : Dir} (h : ¬ Leaves ns ew x y d) :
    t.turn ns ew x y d = d := by
  by_cases ht : Turns t
  · rw [turn_eq ht]
    unfold Leaves Inside unit at h
    cases d <;> simp only at h ⊢ <;> split_ifs <;> first | rfl | (exfalso; omega)
  · exact turn_of_not ht ..

theorem turn_border {t : Topology} {ns ew x y : Int} {d : Dir} (h : ¬ Corner ns ew x y) :
    t.turn ns ew x y d = d := by
  by_cases ht : Turns t
  · rw [turn_eq ht]
    unfold Corner at h
    rw [if_neg (by omega), if_neg (by omega), if_neg (by omega), if_neg (by omega)]
  · exact turn_of_not ht ..

/-- At a corner of more than one chip the turned direction stays in the mesh. -/
theorem turn_corner {t : Topology} (ht : Turns t) {ns ew x y : Int} (hi : Inside ns ew x y) (hc : Corner ns ew x y)
    (h1 : ¬ (ns = 1 ∧ ew = 1)) (d : Dir) : ¬ Leaves ns ew x y (t.turn ns ew x y d) := by
  unfold Inside at hi
  unfold Corner at hc
  unfold Leaves
  rw [not_not, turn_eq ht]
  by_cases a : x = 0 <;> by_cases b : x = ew - 1 <;> by_cases c : y = 0 <;> by_cases e : y = ns - 1 <;>
    first
    | (exfalso; omega)
    | (simp only [a, b, c, e, and_true, true_and, if_true]
       cases d <;> split_ifs <;> first | (exfalso; omega) | (simp only [unit, Inside]; omega))

theorem next_moves {t : Topology} (hp : Proper t) {a b : Int} {d d' : Dir} (h : t.next a d = .ok (b, d')) :
    Moves t a d b d' := by
  obtain ⟨m, ns, ew, x, y, hs, rfl, hs'⟩ := next_ok hp h
  refine ⟨m, ns, ew, x, y, hs, hs', fun hne => ⟨?_, ?_, ?_⟩⟩
  · by_contra hn; exact hne (turn_of_not hn ..)
  · by_contra hn; exact hne (turn_border hn)
  · by_contra hn; exact hne (turn_stay hn)

theorem need_ok {α : Type} {x : Option α} {a : α} (h : need x = .ok a) : x = some a := by
  cases x with
  | none => exact absurd h nofun
  | some b => rw [Out.ok.inj h]

theorem found_ok {α : Type} {x : Option α} {a : α} (h : found x = .ok a) : x = some a := by
  cases x with
  | none => exact absurd h nofun
  | some b => rw [Out.ok.inj h]

theorem forwardHop_ok {t : Topology} (hp : Proper t) {plane a : Int} {d : Dir} {f : (Int × Int) × Int × (Int × Int) × Dir}
    (h : forwardHop t plane a d = .ok f) :
    Moves t a d f.2.1 f.2.2.2 ∧ Port t a plane f.2.2.2 f.1 ∧ Port t f.2.1 plane f.2.2.2.inverse f.2.2.1 := by
  unfold forwardHop at h
  rw [bind_eq_ok] at h
  obtain ⟨n, hn, h⟩ := h
  rw [bind_eq_ok] at h
  obtain ⟨chan, hc, h⟩ := h
  rw [bind_eq_ok] at h
  obtain ⟨fwd, hf, h⟩ := h
  rw [bind_eq_ok] at h
  obtain ⟨rchan, hr, h⟩ := h
  rw [bind_eq_ok] at h
  obtain ⟨recv, hv, h⟩ := h
  rw [← Out.ok.inj h]
  exact ⟨next_moves hp hn, ⟨chan, mem_of_key (found_ok hc), mem_of_key (need_ok hf)⟩,
    ⟨rchan, mem_of_key (found_ok hr), mem_of_key (need_ok hv)⟩⟩

/-- The numbers of the hops from `j + 1` on. -/
def hopsFrom (j m : Nat) : List Int := (List.range' j m).map fun (k : Nat) => (k : Int) + 1

theorem hopsFrom_succ (j m : Nat) : hopsFrom j (m + 1) = ((j : Int) + 1) :: hopsFrom (j + 1) m := by
  unfold hopsFrom
  rw [List.range'_succ, List.map_cons]

theorem hops_eq (n : Nat) : ((List.range n).map fun (k : Nat) => (k : Int) + 1) = hopsFrom 0 n := by
  unfold hopsFrom
  rw [List.range_eq_range']

/-- The loop of a line that ends with writes. -/
theorem hops_line {t : Topology} (hp : Proper t) {start plane : Int} {dst : List Json} {par : Int} (m : Nat) :
    ∀ (j : Nat) (w w' : Walk), w.parent = (j : Int) + 1 + par →
    Out.foldlM (hopBody t ⟨start, (j : Int) + m + 1, plane, dst, true⟩) w (hopsFrom j (m + 1)) = .ok w' →
    ∃ segs, w'.path = w.path ++ segs ∧ segs.length = m + 1 ∧
      Line t plane dst start par ((j : Int) + 1) w.dev w.dir w.recv segs w'.dev := by
  induction m with
  | zero =>
    intro j w w' hw h
    rw [hopsFrom_succ, foldlM_cons, bind_eq_ok] at h
    obtain ⟨w1, h1, h⟩ := h
    unfold hopBody at h1
    simp only [Nat.cast_zero, add_zero] at h1
    rw [if_neg (by simp)] at h1
    unfold hopsFrom at h
    simp only [List.range'_zero, List.map_nil] at h
    have e : w' = w1 := (Out.ok.inj h).symm
    rw [e, ← Out.ok.inj h1]
    refine ⟨_, rfl, rfl, ?_⟩
    simp only [and_true]
    rw [hw]
    exact Line.last _ _ _ _
  | succ m ih =>
    intro j w w' hw h
    rw [hopsFrom_succ, foldlM_cons, bind_eq_ok] at h
    obtain ⟨w1, h1, h⟩ := h
    unfold hopBody at h1
    simp only at h1
    rw [if_pos (Or.inl (by push_cast; omega)), bind_eq_ok] at h1
    obtain ⟨f, hf, h1⟩ := h1
    have h1 := (Out.ok.inj h1).symm
    have hcast : ((j : Int) + ((m + 1 : Nat) : Int) + 1) = (((j + 1 : Nat) : Int) + (m : Int) + 1) := by push_cast; omega
    rw [hcast] at h
    obtain ⟨segs, hs1, hs2, hs3⟩ := ih (j + 1) w1 w' (by rw [h1]; push_cast; omega) h
    obtain ⟨g1, g2, g3⟩ := forwardHop_ok hp hf
    rw [h1] at hs1 hs3
    refine ⟨_ :: segs, by rw [hs1, List.append_assoc]; rfl, by simp [hs2], ?_⟩
    simp only [and_true]
    rw [hw]
    push_cast at hs3
    exact Line.hop g1 g2 g3 hs3

/-- The loop of a leg that only forwards. -/
theorem hops_leg {t : Topology} (hp : Proper t) {start total plane : Int} {dst : List Json} {par : Int} (m : Nat) :
    ∀ (j : Nat) (w w' : Walk), w.parent = (j : Int) + 1 + par →
    Out.foldlM (hopBody t ⟨start, total, plane, dst, false⟩) w (hopsFrom j m) = .ok w' →
    ∃ segs, w'.path = w.path ++ segs ∧ segs.length = m ∧
      Leg t plane par ((j : Int) + 1) w.dev w.dir w.recv segs w'.dev w'.dir w'.recv := by
  induction m with
  | zero =>
    intro j w w' hw h
    have e : w' = w := (Out.ok.inj h).symm
    rw [e]
    exact ⟨[], by simp, rfl, Leg.nil _ _ _ _⟩
  | succ m ih =>
    intro j w w' hw h
    rw [hopsFrom_succ, foldlM_cons, bind_eq_ok] at h
    obtain ⟨w1, h1, h⟩ := h
    unfold hopBody at h1
    simp only at h1
    rw [if_pos (Or.inr (by simp)), bind_eq_ok] at h1
    obtain ⟨f, hf, h1⟩ := h1
    have h1 := (Out.ok.inj h1).symm
    obtain ⟨segs, hs1, hs2, hs3⟩ := ih (j + 1) w1 w' (by rw [h1]; push_cast; omega) h
    obtain ⟨g1, g2, g3⟩ := forwardHop_ok hp hf
    rw [h1] at hs1 hs3
    refine ⟨_ :: segs, by rw [hs1, List.append_assoc]; rfl, by simp [hs2], ?_⟩
    simp only [Bool.false_eq_true, and_false, if_false]
    rw [hw]
    push_cast at hs3
    exact Leg.hop g1 g2 g3 hs3

theorem addHops_line {t : Topology} (hp : Proper t) {path : List Segment} {dev : Int} {recv : Int × Int}
    {start range plane parent : Int} {dir : Dir} {dst : List Json} {w : Walk} (hpos : 1 ≤ start + range - 1)
    (h : addHops t path dev recv start range dir plane dst true parent = .ok w) :
    ∃ segs, w.path = path ++ segs ∧ (segs.length : Int) = start + range - 1 ∧
      Line t plane dst start (parent - 1) 1 dev dir recv segs w.dev := by
  unfold addHops at h
  obtain ⟨m, hm⟩ : ∃ m : Nat, start + range - 1 = (m : Int) + 1 := ⟨(start + range - 2).toNat, by omega⟩
  rw [hm, show ((m : Int) + 1).toNat = m + 1 by omega, hops_eq] at h
  have := hops_line hp (start := start) (plane := plane) (dst := dst) (par := parent - 1) m 0
    ⟨path, dev, recv, dir, parent⟩ w (by push_cast; omega) (by
      rw [show ((0 : Nat) : Int) + (m : Int) + 1 = (m : Int) + 1 by push_cast; omega]; exact h)
  obtain ⟨segs, h1, h2, h3⟩ := this
  refine ⟨segs, h1, by rw [h2]; push_cast; omega, ?_⟩
  simpa using h3

theorem addHops_leg {t : Topology} (hp : Proper t) {path : List Segment} {dev : Int} {recv : Int × Int}
    {start plane parent : Int} {dir : Dir} {dst : List Json} {w : Walk} (hpos : 0 ≤ start)
    (h : addHops t path dev recv start 1 dir plane dst false parent = .ok w) :
    ∃ segs, w.path = path ++ segs ∧ (segs.length : Int) = start ∧
      Leg t plane (parent - 1) 1 dev dir recv segs w.dev w.dir w.recv := by
  unfold addHops at h
  rw [show start + 1 - 1 = start by omega, hops_eq] at h
  obtain ⟨segs, h1, h2, h3⟩ := hops_leg hp (start := start) (plane := plane) (dst := dst) (par := parent - 1)
    start.toNat 0 ⟨path, dev, recv, dir, parent⟩ w (by push_cast; omega) h
  refine ⟨segs, h1, by omega, ?_⟩
  simpa using h3

theorem addFirstHop_ok {t : Topology} {src : Int × Int} {dev chan : Int} {mux : Option Mux} {noc : String}
    {path : List Segment} (h : addFirstHop t src dev chan mux noc = .ok path) :
    ∃ r, (chan, r) ∈ t.ethCoord ∧ path = firstSegments src dev mux noc r := by
  unfold addFirstHop at h
  rw [bind_eq_ok] at h
  obtain ⟨r, hr, h⟩ := h
  refine ⟨r, mem_of_key (need_ok hr), ?_⟩
  cases mux with
  | none => exact (Out.ok.inj h).symm
  | some m => exact (Out.ok.inj h).symm

theorem findPlane_ok {t : Topology} {dev chan : Int} {p : Int × Dir × Int} (h : findPlane t dev chan = .ok p) :
    ((dev, p.1, p.2.1), chan) ∈ t.planes ∧ ∃ e, t.planes.getLast? = some e ∧ p.2.2 = e.1.2.1 := by
  unfold findPlane at h
  split at h
  · rename_i e l hf hl
    have h1 := List.find?_some hf
    have h2 := List.mem_reverse.mp (List.mem_of_find?_eq_some hf)
    simp only [decide_eq_true_eq] at h1
    rw [← Out.ok.inj h]
    refine ⟨?_, l, hl, rfl⟩
    have : ((dev, e.1.2.1, e.1.2.2), chan) = e := by rw [← h1.1, ← h1.2]
    rw [this]
    exact h2
  · exact absurd h nofun

theorem firstReceiver_ok {t : Topology} (hp : Proper t) {dev plane : Int} {d : Dir} {r : Int × (Int × Int) × Dir}
    (h : firstReceiver t dev plane d = .ok r) :
    Moves t dev d r.1 r.2.2 ∧ Port t r.1 plane r.2.2.inverse r.2.1 := by
  unfold firstReceiver at h
  rw [bind_eq_ok] at h
  obtain ⟨n, hn, h⟩ := h
  rw [bind_eq_ok] at h
  obtain ⟨chan, hc, h⟩ := h
  rw [bind_eq_ok] at h
  obtain ⟨recv, hr, h⟩ := h
  rw [← Out.ok.inj h]
  exact ⟨next_moves hp hn, ⟨chan, mem_of_key (found_ok hc), mem_of_key (need_ok hr)⟩⟩

theorem line_parents {t : Topology} {plane start par k a z : Int} {dst : List Json} {d : Dir} {p : Int × Int}
    {segs : List Segment} (h : Line t plane dst start par k a d p segs z) :
    ∀ (i : Nat) s, segs[i]? = some s → s.parent = k + i + par := by
  induction h with
  | last k a d p =>
    intro i s hs
    cases i with
    | zero => rw [← Option.some.inj hs]; simp
    | succ i => exact absurd hs nofun
  | hop _ _ _ _ ih =>
    intro i s hs
    cases i with
    | zero => rw [← Option.some.inj hs]; simp
    | succ i =>
      rw [ih i s hs]
      push_cast
      omega

theorem leg_parents {t : Topology} {plane par k a b : Int} {d d' : Dir} {p p' : Int × Int}
    {segs : List Segment} (h : Leg t plane par k a d p segs b d' p') :
    ∀ (i : Nat) s, segs[i]? = some s → s.parent = k + i + par := by
  induction h with
  | nil k a d p => intro i s hs; exact absurd hs nofun
  | hop _ _ _ _ ih =>
    intro i s hs
    cases i with
    | zero => rw [← Option.some.inj hs]; simp
    | succ i =>
      rw [ih i s hs]
      push_cast
      omega

theorem line_writes {t : Topology} {plane start par k a z : Int} {dst : List Json} {d : Dir} {p : Int × Int}
    {segs : List Segment} (h : Line t plane dst start par k a d p segs z) :
    ∀ (i : Nat) s, segs[i]? = some s → s.writes = writesAt start (k + i) dst := by
  induction h with
  | last k a d p =>
    intro i s hs
    cases i with
    | zero => rw [← Option.some.inj hs]; simp
    | succ i => exact absurd hs nofun
  | hop _ _ _ _ ih =>
    intro i s hs
    cases i with
    | zero => rw [← Option.some.inj hs]; simp
    | succ i =>
      rw [ih i s hs]
      push_cast
      congr 1
      omega

theorem leg_writes {t : Topology} {plane par k a b : Int} {d d' : Dir} {p p' : Int × Int}
    {segs : List Segment} (h : Leg t plane par k a d p segs b d' p') :
    ∀ s ∈ segs, s.writes = none ∧ s.forward ≠ none := by
  induction h with
  | nil k a d p => intro s hs; exact absurd hs List.not_mem_nil
  | hop _ _ _ _ ih =>
    intro s hs
    rcases List.mem_cons.mp hs with rfl | hs
    · exact ⟨rfl, nofun⟩
    · exact ih s hs

theorem line_forward {t : Topology} {plane start par k a z : Int} {dst : List Json} {d : Dir} {p : Int × Int}
    {segs : List Segment} (h : Line t plane dst start par k a d p segs z) :
    ∀ (i : Nat) s, segs[i]? = some s → (s.forward = none ↔ i + 1 = segs.length) := by
  induction h with
  | last k a d p =>
    intro i s hs
    cases i with
    | zero => rw [← Option.some.inj hs]; simp
    | succ i => exact absurd hs nofun
  | hop _ _ _ hl ih =>
    intro i s hs
    have hne : ∀ {k a d p segs z}, Line t plane dst start par k a d p segs z → segs.length ≠ 0 := by
      intro k a d p segs z h
      cases h <;> simp
    cases i with
    | zero =>
      rw [← Option.some.inj hs]
      have := hne hl
      simp only [List.length_cons]
      exact iff_of_false nofun (by omega)
    | succ i =>
      rw [ih i s hs]
      simp

theorem line_length {t : Topology} {plane start par k a z : Int} {dst : List Json} {d : Dir} {p : Int × Int}
    {segs : List Segment} (h : Line t plane dst start par k a d p segs z) : 0 < segs.length := by
  cases h <;> simp

theorem displaced_zero {t : Topology} {ns ew x y : Int} (h : Inside ns ew x y) (d : Dir) :
    displaced t ns ew x y d 0 = (x, y) := by
  obtain ⟨a, b, c, e⟩ := h
  unfold displaced
  split
  · rw [zero_mul, zero_mul, add_zero, add_zero, Int.emod_eq_of_lt a b, Int.emod_eq_of_lt c e]
  · rw [zero_mul, zero_mul, add_zero, add_zero]

theorem displaced_moved (t : Topology) (ns ew x y : Int) (d : Dir) (n : Int) :
    displaced t ns ew (moved t ns ew x y d).1 (moved t ns ew x y d).2 d n = displaced t ns ew x y d (n + 1) := by
  unfold displaced moved
  by_cases hw : Wraps t
  · simp only [if_pos hw, Int.emod_add_emod, Prod.mk.injEq]
    constructor <;> congr 1 <;> ring
  · simp only [if_neg hw, Prod.mk.injEq]
    constructor <;> ring

theorem moves_place {t : Topology} (hp : Proper t) (ht : ¬ Turns t) {a b m ns ew x y : Int} {d d' : Dir}
    (h : Moves t a d b d') (hs : Sits t a m ns ew x y) :
    d' = d ∧ Sits t b m ns ew (moved t ns ew x y d).1 (moved t ns ew x y d).2 := by
  obtain ⟨m', ns', ew', x', y', h1, h2, h3⟩ := h
  have hd : d' = d := by
    by_contra hn
    exact ht (h3 hn).1
  obtain ⟨rfl, rfl, rfl, rfl, rfl⟩ := sits_place hp hs h1
  rw [hd] at h2
  exact ⟨hd, h2⟩

/-- The places of the hops of a line. -/
theorem line_places {t : Topology} (hp : Proper t) (ht : ¬ Turns t) {plane start par k a z : Int} {dst : List Json}
    {d : Dir} {p : Int × Int} {segs : List Segment} (h : Line t plane dst start par k a d p segs z)
    {m ns ew x y : Int} (hs : Sits t a m ns ew x y) :
    (∀ (i : Nat) s, segs[i]? = some s →
      Sits t s.device m ns ew (displaced t ns ew x y d i).1 (displaced t ns ew x y d i).2) ∧
    Sits t z m ns ew (displaced t ns ew x y d (segs.length - 1)).1 (displaced t ns ew x y d (segs.length - 1)).2 := by
  induction h generalizing x y with
  | last k a d p =>
    have hz := displaced_zero (t := t) ⟨hs.x0, hs.x1, hs.y0, hs.y1⟩ d
    refine ⟨?_, ?_⟩
    · intro i s hi
      cases i with
      | zero => rw [← Option.some.inj hi]; simp only [Nat.cast_zero, hz]; exact hs
      | succ i => exact absurd hi nofun
    · simp only [List.length_singleton, Nat.cast_one, sub_self, hz]
      exact hs
  | hop hm _ _ hl ih =>
    obtain ⟨hd, hb⟩ := moves_place hp ht hm hs
    subst hd
    obtain ⟨h1, h2⟩ := ih hb
    refine ⟨?_, ?_⟩
    · intro i s hi
      cases i with
      | zero =>
        have hz := fun v => displaced_zero (t := t) ⟨hs.x0, hs.x1, hs.y0, hs.y1⟩ v
        rw [← Option.some.inj hi]
        simp only [Nat.cast_zero, hz]
        exact hs
      | succ i =>
        have := h1 i s hi
        rw [displaced_moved] at this
        push_cast
        exact this
    · rw [displaced_moved] at h2
      have := line_length hl
      rw [List.length_cons]
      push_cast
      rw [show ((_ : Int) + 1 - 1) = (_ - 1) + 1 by ring]
      exact h2

theorem leg_places {t : Topology} (hp : Proper t) (ht : ¬ Turns t) {plane par k a b : Int}
    {d d' : Dir} {p p' : Int × Int} {segs : List Segment} (h : Leg t plane par k a d p segs b d' p')
    {m ns ew x y : Int} (hs : Sits t a m ns ew x y) :
    d' = d ∧ (∀ (i : Nat) s, segs[i]? = some s →
      Sits t s.device m ns ew (displaced t ns ew x y d i).1 (displaced t ns ew x y d i).2) ∧
    Sits t b m ns ew (displaced t ns ew x y d segs.length).1 (displaced t ns ew x y d segs.length).2 := by
  induction h generalizing x y with
  | nil k a d p =>
    have hz := displaced_zero (t := t) ⟨hs.x0, hs.x1, hs.y0, hs.y1⟩ d
    refine ⟨rfl, fun i s hi => absurd hi nofun, ?_⟩
    simp only [List.length_nil, Nat.cast_zero, hz]
    exact hs
  | hop hm _ _ hl ih =>
    obtain ⟨hd, hb⟩ := moves_place hp ht hm hs
    subst hd
    obtain ⟨h0, h1, h2⟩ := ih hb
    refine ⟨h0, ?_, ?_⟩
    · intro i s hi
      cases i with
      | zero =>
        have hz := fun v => displaced_zero (t := t) ⟨hs.x0, hs.x1, hs.y0, hs.y1⟩ v
        rw [← Option.some.inj hi]
        simp only [Nat.cast_zero, hz]
        exact hs
      | succ i =>
        have := h1 i s hi
        rw [displaced_moved] at this
        push_cast
        exact this
    · rw [displaced_moved] at h2
      rw [List.length_cons]
      push_cast
      exact h2

end NPE
