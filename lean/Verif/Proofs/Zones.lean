import Verif.Proofs.Scan
import Verif.Spec.Zones

/-
Lemmas about zones: the iterator and the document.
-/

namespace NPE
open Spec Out

namespace Forest

theorem events_append (f g : Forest) : (f.append g).events = f.events ++ g.events := by
  induction f with
  | nil => rfl
  | cons n s e k r _ ih => simp [Spec.Forest.append, Spec.Forest.events, ih]

theorem started_events (m : String) (f : Forest) : started m f.events = f.count m := by
  induction f with
  | nil => rfl
  | cons n s e k r ih1 ih2 =>
    unfold started at *
    simp only [Spec.Forest.events, Spec.Forest.count, List.countP_cons, List.countP_append, ih1, ih2]
    by_cases h : n = m
    · simp [h]; omega
    · simp [h]

end Forest

theorem started_append (m : String) (a b : List Zone) : started m (a ++ b) = started m a + started m b := by
  unfold started; rw [List.countP_append]

/-- A closed forest may follow. -/
theorem Spec.Opening.extend {zs : List Zone} {st : List (Zone × Nat)} (h : Opening zs st) (g : Forest) :
    Opening (zs ++ g.events) st := by
  cases h with
  | closed f => rw [← Forest.events_append]; exact .closed _
  | @opened pre st s f h hs =>
    have := Opening.opened s (f.append g) h hs
    rw [Forest.events_append] at this
    simpa using this

/-- One step of the iterator. -/
theorem next_start {zs : List Zone} {it : ZoneIter} {z : Zone} (hz : zs[it.idx]? = some z)
    (hp : z.phase = .zoneStart) : it.next zs = .ok
      { idx := it.idx + 1
        stack := it.stack ++ [(z, it.counts z.zone)]
        counts := fun s => if s = z.zone then it.counts s + 1 else it.counts s } := by
  unfold ZoneIter.next
  rw [hz]
  simp only
  rw [hp]

theorem next_end {zs : List Zone} {it : ZoneIter} {z s : Zone} {st : List (Zone × Nat)} {k : Nat}
    (hz : zs[it.idx]? = some z) (hp : z.phase = .zoneEnd) (hst : it.stack = st ++ [(s, k)])
    (hn : z.zone = s.zone) : it.next zs = .ok { it with idx := it.idx + 1, stack := st } := by
  unfold ZoneIter.next
  rw [hz]
  simp only
  rw [hp, hst]
  simp [hn]

/-- What the iterator knows after `n` events. -/
structure Walked (zs : List Zone) (n : Nat) (it : ZoneIter) : Prop where
  idx : it.idx = n
  counts : ∀ m, it.counts m = started m (zs.take n)
  stack : Opening (zs.take n) it.stack

theorem started_single_start {z : Zone} (hp : z.phase = .zoneStart) (m : String) :
    started m [z] = if m = z.zone then 1 else 0 := by
  unfold started
  simp only [List.countP_singleton, hp, decide_true, Bool.true_and]
  by_cases h : m = z.zone
  · simp [h]
  · rw [if_neg h, if_neg (by simpa using fun e => h e.symm)]

theorem started_single_end {z : Zone} (hp : z.phase = .zoneEnd) (m : String) : started m [z] = 0 := by
  unfold started
  simp [hp]

theorem walked {zs : List Zone} : ∀ (n : Nat) (it : ZoneIter), n ≤ zs.length → walk zs n = .ok it →
    Walked zs n it := by
  intro n
  induction n with
  | zero =>
    intro it _ h
    rw [← Out.ok.inj h]
    exact ⟨rfl, fun _ => rfl, .closed .nil⟩
  | succ n ih =>
    intro it hn h
    obtain ⟨it0, h0, h⟩ := bind_eq_ok.mp (show (walk zs n >>= fun it => it.next zs) = .ok it from h)
    obtain ⟨W1, W2, W3⟩ := ih it0 (by omega) h0
    have hlt : n < zs.length := by omega
    have hz : zs[it0.idx]? = some zs[n] := by rw [W1]; exact List.getElem?_eq_getElem hlt
    have htake : zs.take (n + 1) = zs.take n ++ [zs[n]] := by
      rw [List.take_add_one, List.getElem?_eq_getElem hlt]; rfl
    cases hp : zs[n].phase with
    | zoneStart =>
      rw [next_start hz hp] at h
      rw [← Out.ok.inj h]
      refine ⟨by simp only; omega, ?_, ?_⟩
      · intro m
        simp only
        rw [htake, started_append, started_single_start hp, W2]
        split <;> omega
      · simp only
        rw [htake, W2]
        exact Opening.opened zs[n] .nil W3 hp
    | zoneEnd =>
      unfold ZoneIter.next at h
      rw [hz] at h
      simp only at h
      rw [hp] at h
      simp only at h
      cases hst : it0.stack.getLast? with
      | none => rw [hst] at h; cases h
      | some top =>
        rw [hst] at h
        simp only at h
        split at h
        · rename_i hname
          rw [← Out.ok.inj h]
          refine ⟨by simp only; omega, ?_, ?_⟩
          · intro m
            simp only
            rw [htake, started_append, started_single_end hp, W2]
            omega
          · simp only
            rw [htake]
            generalize zs.take n = pre at W3
            generalize it0.stack = st at W3 hst
            cases W3 with
            | closed f => simp at hst
            | @opened pre st s f h' hs =>
              simp only [List.getLast?_append, List.getLast?_singleton, Option.some_or, Option.some.injEq] at hst
              rw [← hst] at hname
              simp only at hname
              have hx := h'.extend (.cons s.zone s.timestamp zs[n].timestamp f .nil)
              have e1 : (⟨s.timestamp, s.zone, .zoneStart⟩ : Zone) = s := by rw [← hs]
              have e2 : (⟨zs[n].timestamp, s.zone, .zoneEnd⟩ : Zone) = zs[n] := by rw [← hp, ← hname]
              simp only [Spec.Forest.events, e1, e2] at hx
              simpa using hx
        · cases h

/-- Walking over a closed forest. -/
theorem walk_events {zs : List Zone} (f : Forest) : ∀ (n : Nat) (it : ZoneIter), it.idx = n →
    walk zs n = .ok it → (∃ rest, zs.drop n = f.events ++ rest) →
    ∃ it', walk zs (n + f.events.length) = .ok it' ∧ it'.stack = it.stack ∧ it'.idx = n + f.events.length := by
  induction f with
  | nil => intro n it hi h _; exact ⟨it, h, rfl, hi⟩
  | cons m s e k r ihk ihr =>
    intro n it hi h hd
    obtain ⟨rest, hd⟩ := hd
    have h1 : zs[it.idx]? = some ⟨s, m, .zoneStart⟩ := by
      rw [hi, ← List.head?_drop, hd]; rfl
    have hw1 : walk zs (n + 1) = .ok
      { idx := it.idx + 1
        stack := it.stack ++ [(⟨s, m, .zoneStart⟩, it.counts m)]
        counts := fun x => if x = m then it.counts x + 1 else it.counts x } := by
      show (walk zs n >>= fun it => it.next zs) = _
      rw [h, bind_ok, next_start h1 rfl]
    have hd1 : zs.drop (n + 1) = k.events ++ (⟨e, m, .zoneEnd⟩ :: (r.events ++ rest)) := by
      rw [← List.drop_drop, hd]
      simp [Spec.Forest.events]
    obtain ⟨it2, hw2, hs2, hi2⟩ := ihk (n + 1) _ (by simp only; omega) hw1 ⟨_, hd1⟩
    have hd2 : zs.drop (n + 1 + k.events.length) = ⟨e, m, .zoneEnd⟩ :: (r.events ++ rest) := by
      rw [← List.drop_drop, hd1]; simp
    have h2 : zs[it2.idx]? = some ⟨e, m, .zoneEnd⟩ := by
      rw [hi2, ← List.head?_drop, hd2]; rfl
    have hw3 : walk zs (n + 1 + k.events.length + 1) = .ok { it2 with idx := it2.idx + 1, stack := it.stack } := by
      show (walk zs _ >>= fun it => it.next zs) = _
      rw [hw2, bind_ok, next_end h2 rfl hs2 rfl]
    have hd3 : zs.drop (n + 1 + k.events.length + 1) = r.events ++ rest := by
      rw [← List.drop_drop, hd2]; simp
    obtain ⟨it4, hw4, hs4, hi4⟩ := ihr _ _ (by simp only; omega) hw3 ⟨_, hd3⟩
    have hlen : (Spec.Forest.cons m s e k r).events.length = 1 + k.events.length + 1 + r.events.length := by
      simp [Spec.Forest.events]; omega
    refine ⟨it4, ?_, hs4, ?_⟩
    · rw [hlen, ← hw4]; congr 1; omega
    · rw [hi4, hlen]; omega

theorem walk_opening {pre : List Zone} {st : List (Zone × Nat)} (h : Opening pre st) : ∀ (zs rest : List Zone),
    zs = pre ++ rest → ∃ it, walk zs pre.length = .ok it ∧ it.stack = st ∧ it.idx = pre.length := by
  induction h with
  | closed f =>
    intro zs rest e
    obtain ⟨it, h1, h2, h3⟩ := walk_events (zs := zs) f 0 ZoneIter.init rfl rfl ⟨rest, by rw [e]; rfl⟩
    rw [Nat.zero_add] at h1 h3
    exact ⟨it, h1, h2, h3⟩
  | @opened pre st s f _ hs ih =>
    intro zs rest e
    obtain ⟨it, h1, h2, h3⟩ := ih zs (s :: f.events ++ rest) (by rw [e]; simp)
    have hz : zs[it.idx]? = some s := by
      rw [h3, e]; simp
    have hw1 : walk zs (pre.length + 1) = .ok
      { idx := it.idx + 1
        stack := it.stack ++ [(s, it.counts s.zone)]
        counts := fun x => if x = s.zone then it.counts x + 1 else it.counts x } := by
      show (walk zs _ >>= fun it => it.next zs) = _
      rw [h1, bind_ok, next_start hz hs]
    have hd : zs.drop (pre.length + 1) = f.events ++ rest := by
      rw [← List.drop_drop, e]; simp
    obtain ⟨it2, hw2, hs2, hi2⟩ := walk_events (zs := zs) f _ _ (by simp only; omega) hw1 ⟨_, hd⟩
    have hc : it.counts s.zone = started s.zone pre := by
      have := (walked pre.length it (by rw [e]; simp) h1).counts s.zone
      rw [this, e]; simp
    refine ⟨it2, ?_, ?_, ?_⟩
    · rw [← hw2]; congr 1; simp; omega
    · rw [hs2, hc, h2]
    · rw [hi2]; simp; omega

/-! ### The document -/

/-- The document while zones are open: closed zones before each open one, outermost first, and the closed
zones inside of the innermost. -/
def plug : List (List ZoneNode × Zone) → List ZoneNode → List ZoneNode
  | [], cur => cur
  | (b, s) :: fr, cur => b ++ [.node s.timestamp none (plug fr cur)]

/-- The pointer to the innermost open zone. -/
def pathOf (fr : List (List ZoneNode × Zone)) : List Nat := fr.map (·.1.length)

theorem modify_plug (f : ZoneNode → ZoneNode) : ∀ (fr : List (List ZoneNode × Zone)) (b : List ZoneNode) (s : Zone)
    (cur : List ZoneNode) (x : ZoneNode), f (.node s.timestamp none cur) = x →
    modifyZone f (pathOf (fr ++ [(b, s)])) (plug (fr ++ [(b, s)]) cur) = .ok (plug fr (b ++ [x]))
  | [], b, s, cur, x, hx => by
    simp only [List.nil_append, pathOf, List.map_cons, List.map_nil, plug, modifyZone]
    rw [List.getElem?_concat_length]
    simp only
    rw [hx, List.set_append_right _ _ (le_refl _)]
    simp
  | (b0, s0) :: fr, b, s, cur, x, hx => by
    have ih := modify_plug f fr b s cur x hx
    have hne : pathOf (fr ++ [(b, s)]) ≠ [] := by simp [pathOf]
    show modifyZone f (b0.length :: pathOf (fr ++ [(b, s)])) (b0 ++ [.node s0.timestamp none
      (plug (fr ++ [(b, s)]) cur)]) = _
    cases hp : pathOf (fr ++ [(b, s)]) with
    | nil => exact absurd hp hne
    | cons i p =>
      rw [hp] at ih
      rw [modifyZone]
      · rw [List.getElem?_concat_length]
        simp only
        rw [ih, bind_ok, List.set_append_right _ _ (le_refl _)]
        simp [plug]
      · simp

theorem read_plug : ∀ (fr : List (List ZoneNode × Zone)) (b : List ZoneNode) (s : Zone) (cur : List ZoneNode),
    readZone (pathOf (fr ++ [(b, s)])) (plug (fr ++ [(b, s)]) cur) = .ok (.node s.timestamp none cur)
  | [], b, s, cur => by
    simp only [List.nil_append, pathOf, List.map_cons, List.map_nil, plug, readZone]
    rw [List.getElem?_concat_length]
  | (b0, s0) :: fr, b, s, cur => by
    have ih := read_plug fr b s cur
    have hne : pathOf (fr ++ [(b, s)]) ≠ [] := by simp [pathOf]
    show readZone (b0.length :: pathOf (fr ++ [(b, s)])) (b0 ++ [.node s0.timestamp none
      (plug (fr ++ [(b, s)]) cur)]) = _
    cases hp : pathOf (fr ++ [(b, s)]) with
    | nil => exact absurd hp hne
    | cons i p =>
      rw [hp] at ih
      rw [readZone]
      · rw [List.getElem?_concat_length]
        exact ih
      · simp

theorem plug_snoc (fr : List (List ZoneNode × Zone)) (b : List ZoneNode) (s : Zone) (cur : List ZoneNode) :
    plug (fr ++ [(b, s)]) cur = plug fr (b ++ [.node s.timestamp none cur]) := by
  induction fr with
  | nil => rfl
  | cons a fr ih => obtain ⟨b0, s0⟩ := a; simp [plug, ih]

/-- The state of the loop: `fr` are the open zones, `cur` the closed zones inside of the innermost. -/
structure Shape (fr : List (List ZoneNode × Zone)) (cur : List ZoneNode) (d : ZoneDoc) : Prop where
  root : d.root = plug fr cur
  stack : d.it.stack.map (·.1) = fr.map (·.2)
  ptr : ∀ a x b, fr = a ++ x :: b → d.ptr.lookup x.2 = some (pathOf (a ++ [x]))

theorem Shape.last {fr : List (List ZoneNode × Zone)} {x : List ZoneNode × Zone} {cur : List ZoneNode} {d : ZoneDoc}
    (h : Shape (fr ++ [x]) cur d) : ∃ st k, d.it.stack = st ++ [(x.2, k)] ∧ st.map (·.1) = fr.map (·.2) := by
  have hs := h.stack
  rcases List.eq_nil_or_concat d.it.stack with e | ⟨st, y, e⟩
  · rw [e] at hs; simp at hs
  · rw [e] at hs
    simp only [List.concat_eq_append, List.map_append, List.map_cons, List.map_nil] at hs
    have := List.append_inj' hs rfl
    refine ⟨st, y.2, ?_, this.1⟩
    rw [e, ← (List.cons.inj this.2).1]
    simp

/-- What a region keeps of a closed zone. -/
def keep (region : Option Region) (s e : Int) (x : ZoneNode) : List ZoneNode :=
  match region with
  | none => [x]
  | some r => if r.zoneFully s e then [x] else []

theorem open_shape {fr : List (List ZoneNode × Zone)} {cur : List ZoneNode} {d : ZoneDoc} (h : Shape fr cur d)
    {z : Zone} (hz : ∀ x ∈ fr, x.2 ≠ z) : ∃ d', d.open z = .ok d' ∧ d'.it = d.it ∧
      d'.root = plug (fr ++ [(cur, z)]) [] ∧
      ∀ a x b, fr ++ [(cur, z)] = a ++ x :: b → d'.ptr.lookup x.2 = some (pathOf (a ++ [x])) := by
  have hptr : ∀ (p : List (Zone × List Nat)), (∀ y, y ≠ z → p.lookup y = d.ptr.lookup y) →
      p.lookup z = some (pathOf (fr ++ [(cur, z)])) →
      ∀ a x b, fr ++ [(cur, z)] = a ++ x :: b → p.lookup x.2 = some (pathOf (a ++ [x])) := by
    intro p h1 h2 a x b e
    rcases List.eq_nil_or_concat b with eb | ⟨b', y, eb⟩
    · rw [eb] at e
      have := List.append_inj' e rfl
      have ex : x = (cur, z) := (List.cons.inj this.2).1.symm
      rw [ex, ← this.1]
      exact h2
    · have e' : fr ++ [(cur, z)] = (a ++ x :: b') ++ [y] := by rw [e, eb]; simp
      have := List.append_inj' e' rfl
      have hx : x.2 ≠ z := hz x (by rw [this.1]; simp)
      rw [h1 _ hx]
      exact h.ptr a x b' this.1
  unfold ZoneDoc.open
  rcases List.eq_nil_or_concat fr with e | ⟨fr', x, e⟩
  · have hst : d.it.stack = [] := by
      have := h.stack
      rw [e] at this
      simpa using this
    rw [hst]
    simp only [List.getLast?_nil]
    refine ⟨_, rfl, rfl, ?_, ?_⟩
    · simp only; rw [h.root, e]; rfl
    · refine hptr _ ?_ ?_
      · intro y hy
        simp only
        rw [List.lookup_cons]
        have : (y == z) = false := by simpa using hy
        rw [this]
      · simp only
        rw [List.lookup_cons, h.root, e]
        simp [pathOf, plug]
  · rw [List.concat_eq_append] at e
    subst e
    obtain ⟨st, k, hst, _⟩ := h.last
    rw [hst]
    simp only [List.getLast?_append, List.getLast?_singleton, Option.some_or]
    obtain ⟨xb, xs⟩ := x
    have hp := h.ptr fr' (xb, xs) [] rfl
    simp only at hp
    unfold ZoneDoc.pointer
    rw [hp]
    simp only [bind_ok]
    rw [h.root, read_plug, bind_ok, modify_plug _ _ _ _ _ _ rfl, bind_ok]
    refine ⟨_, rfl, rfl, ?_, ?_⟩
    · simp only
      rw [plug_snoc, plug_snoc]
    · refine hptr _ ?_ ?_
      · intro y hy
        simp only
        rw [List.lookup_cons]
        have : (y == z) = false := by simpa using hy
        rw [this]
      · simp only
        rw [List.lookup_cons]
        simp [pathOf, ZoneNode.kids]

theorem eraseLast_concat (b : List ZoneNode) (x : ZoneNode) : eraseLast (b ++ [x]) = .ok b := by
  unfold eraseLast
  split
  · rename_i h; simp at h
  · rw [List.dropLast_concat]

theorem close_shape {fr : List (List ZoneNode × Zone)} {b cur : List ZoneNode} {s : Zone} {d : ZoneDoc}
    (h : Shape (fr ++ [(b, s)]) cur d) (region : Option Region) (e : Int) {st : List (Zone × Nat)} {k : Nat}
    (hst : d.it.stack = st ++ [(s, k)]) (z : Zone) (hz : z.timestamp = e) :
    ∃ d', d.close region z = .ok d' ∧ d'.it = d.it ∧ d'.ptr = d.ptr ∧
      d'.root = plug fr (b ++ keep region s.timestamp e (.node s.timestamp (some (zoneLabel s.zone k, e)) cur)) := by
  have hp := h.ptr fr (b, s) [] rfl
  simp only at hp
  unfold ZoneDoc.close
  rw [hst]
  simp only [List.getLast?_append, List.getLast?_singleton, Option.some_or]
  unfold ZoneDoc.pointer
  rw [hp]
  simp only [bind_ok]
  rw [h.root, modify_plug _ _ _ _ _ _ rfl, bind_ok, hz]
  cases region with
  | none => exact ⟨_, rfl, rfl, rfl, rfl⟩
  | some r =>
    simp only [keep]
    by_cases hr : r.zoneFully s.timestamp e = true
    · rw [if_pos hr, if_pos hr]
      exact ⟨_, rfl, rfl, rfl, rfl⟩
    · rw [if_neg hr, if_neg hr, List.append_nil]
      rw [List.dropLast_concat]
      have hmap : st.map (·.1) = fr.map (·.2) := by
        have := h.stack
        rw [hst] at this
        simp only [List.map_append, List.map_cons, List.map_nil] at this
        exact (List.append_inj' this rfl).1
      rcases List.eq_nil_or_concat fr with e1 | ⟨fr', x, e1⟩
      · have : st = [] := by rw [e1] at hmap; simpa using hmap
        rw [this, e1]
        simp only [List.getLast?_nil, plug]
        rw [eraseLast_concat, bind_ok]
        exact ⟨_, rfl, rfl, rfl, rfl⟩
      · rw [List.concat_eq_append] at e1
        subst e1
        obtain ⟨xb, xs⟩ := x
        rcases List.eq_nil_or_concat st with e2 | ⟨st', y, e2⟩
        · rw [e2] at hmap; simp at hmap
        · rw [List.concat_eq_append] at e2
          subst e2
          simp only [List.map_append, List.map_cons, List.map_nil] at hmap
          have hy : y.1 = xs := (List.cons.inj (List.append_inj' hmap rfl).2).1
          simp only [List.getLast?_append, List.getLast?_singleton, Option.some_or]
          have hq := h.ptr fr' (xb, xs) [(b, s)] (by simp)
          simp only at hq
          rw [hy, hq]
          simp only [bind_ok]
          unfold eraseChild
          rw [read_plug, bind_ok]
          simp only [ZoneNode.kids]
          rw [eraseLast_concat, bind_ok, modify_plug _ _ _ _ _ _ rfl, bind_ok]
          refine ⟨_, rfl, rfl, rfl, ?_⟩
          simp only
          rw [plug_snoc]

/-- The document of a region. -/
def Forest.docIn (region : Option Region) (before : String → Nat) (f : Forest) : List ZoneNode :=
  match region with
  | none => f.document before
  | some r => f.documentIn r.startCycle r.endCycle before

theorem docIn_cons (region : Option Region) (before : String → Nat) (n : String) (s e : Int) (k r : Forest) :
    Forest.docIn region before (.cons n s e k r) =
      keep region s e (.node s (some (zoneLabel n (before n), e))
        (Forest.docIn region (fun m => before m + if n = m then 1 else 0) k)) ++
      Forest.docIn region (fun m => (before m + if n = m then 1 else 0) + k.count m) r := by
  cases region with
  | none => rfl
  | some R =>
    simp only [Forest.docIn, Spec.Forest.documentIn, keep, Region.zoneFully, Bool.and_eq_true, decide_eq_true_eq]
    split
    · rfl
    · rfl

theorem has_of {f : Forest} {m : String} {t : Int} (h : ¬ f.Has m t) :
    ∀ z ∈ f.events, z.phase = .zoneStart → ¬ (z.zone = m ∧ z.timestamp = t) := by
  induction f with
  | nil => simp [Spec.Forest.events]
  | cons n s e k r ihk ihr =>
    simp only [Spec.Forest.Has, not_or] at h
    intro z hz hp
    simp only [Spec.Forest.events, List.mem_cons, List.mem_append] at hz
    rcases hz with rfl | hz | rfl | hz
    · exact h.1
    · exact ihk h.2.1 z hz hp
    · cases hp
    · exact ihr h.2.2 z hz hp

/-- Emitting a forest. -/
theorem emit_forest {zs : List Zone} {region : Option Region} (f : Forest) :
    ∀ (fr : List (List ZoneNode × Zone)) (cur : List ZoneNode) (d : ZoneDoc), Shape fr cur d → f.NoClash →
    (∀ x ∈ fr, ¬ f.Has x.2.zone x.2.timestamp) →
    (∃ rest, zs.drop d.it.idx = f.events ++ rest) →
    ∃ d', Out.foldlM (ZoneDoc.step region zs) d f.events = .ok d' ∧
      Shape fr (cur ++ Forest.docIn region d.it.counts f) d' ∧ d'.it.stack = d.it.stack ∧
      d'.it.idx = d.it.idx + f.events.length ∧
      d'.it.counts = fun m => d.it.counts m + f.count m := by
  induction f with
  | nil =>
    intro fr cur d h _ _ _
    refine ⟨d, rfl, ?_, rfl, rfl, rfl⟩
    have : Forest.docIn region d.it.counts .nil = [] := by cases region <;> rfl
    rw [this, List.append_nil]
    exact h
  | cons n s e k r ihk ihr =>
    intro fr cur d h hc hfr hd
    obtain ⟨rest, hd⟩ := hd
    obtain ⟨hc1, hc2, hc3⟩ := hc
    have hfr1 : ∀ x ∈ fr, x.2 ≠ (⟨s, n, .zoneStart⟩ : Zone) := by
      intro x hx ex
      have := hfr x hx
      rw [ex] at this
      exact this (Or.inl ⟨rfl, rfl⟩)
    -- the start
    obtain ⟨d1, h1, i1, r1, p1⟩ := open_shape h hfr1
    have hz1 : zs[d1.it.idx]? = some ⟨s, n, .zoneStart⟩ := by
      rw [i1, ← List.head?_drop, hd]; rfl
    have hn1 := next_start hz1 rfl
    set it2 : ZoneIter := { idx := d1.it.idx + 1
                            stack := d1.it.stack ++ [(⟨s, n, .zoneStart⟩, d1.it.counts n)]
                            counts := fun m => if m = n then d1.it.counts m + 1 else d1.it.counts m } with hit2
    have hs1 : ZoneDoc.step region zs d ⟨s, n, .zoneStart⟩ = .ok { d1 with it := it2 } := by
      unfold ZoneDoc.step
      simp only
      rw [h1, bind_ok, hn1, bind_ok]
      rfl
    have S2 : Shape (fr ++ [(cur, ⟨s, n, .zoneStart⟩)]) [] { d1 with it := it2 } := by
      refine ⟨r1, ?_, p1⟩
      simp only [hit2, List.map_append, List.map_cons, List.map_nil]
      rw [i1, h.stack]
    -- inside
    have hd2 : zs.drop it2.idx = k.events ++ (⟨e, n, .zoneEnd⟩ :: (r.events ++ rest)) := by
      simp only [hit2]
      rw [i1, ← List.drop_drop, hd]
      simp [Spec.Forest.events]
    obtain ⟨d3, h3, S3, st3, i3, c3⟩ := ihk _ _ _ S2 hc2 (by
      intro x hx
      rcases List.mem_append.mp hx with hx | hx
      · have := hfr x hx
        simp only [Spec.Forest.Has, not_or] at this
        exact this.2.1
      · rw [List.mem_singleton] at hx
        rw [hx]; exact hc1) ⟨_, hd2⟩
    simp only at st3 i3 c3
    rw [List.nil_append] at S3
    -- the end
    have hst3 : d3.it.stack = d.it.stack ++ [(⟨s, n, .zoneStart⟩, d.it.counts n)] := by
      rw [st3]; simp only [hit2]; rw [i1]
    obtain ⟨d4, h4, i4, p4, r4⟩ := close_shape S3 region e hst3 ⟨e, n, .zoneEnd⟩ rfl
    have hd3 : zs.drop d3.it.idx = ⟨e, n, .zoneEnd⟩ :: (r.events ++ rest) := by
      rw [i3, ← List.drop_drop, hd2]; simp
    have hz4 : zs[d4.it.idx]? = some ⟨e, n, .zoneEnd⟩ := by
      rw [i4, ← List.head?_drop, hd3]; rfl
    have hn4 := next_end (s := ⟨s, n, .zoneStart⟩) hz4 rfl (by rw [i4]; exact hst3) rfl
    have hs4 : ZoneDoc.step region zs d3 ⟨e, n, .zoneEnd⟩ =
        .ok { d4 with it := { d4.it with idx := d4.it.idx + 1, stack := d.it.stack } } := by
      unfold ZoneDoc.step
      simp only
      rw [h4, bind_ok, hn4, bind_ok]
      rfl
    set d5 : ZoneDoc := { d4 with it := { d4.it with idx := d4.it.idx + 1, stack := d.it.stack } } with hd5
    have S5 : Shape fr (cur ++ keep region s e (.node s (some (zoneLabel n (d.it.counts n), e))
        (Forest.docIn region it2.counts k))) d5 := by
      refine ⟨r4, h.stack, ?_⟩
      intro a x b eq
      show d4.ptr.lookup _ = _
      rw [p4]
      exact S3.ptr a x (b ++ [(cur, ⟨s, n, .zoneStart⟩)]) (by rw [eq]; simp)
    have hd6 : zs.drop d5.it.idx = r.events ++ rest := by
      show zs.drop (d4.it.idx + 1) = _
      rw [i4, ← List.drop_drop, hd3]; rfl
    obtain ⟨d6, h6, S6, st6, i6, c6⟩ := ihr _ _ _ S5 hc3 (by
      intro x hx
      have := hfr x hx
      simp only [Spec.Forest.Has, not_or] at this
      exact this.2.2) ⟨_, hd6⟩
    have hcnt2 : it2.counts = fun m => d.it.counts m + if n = m then 1 else 0 := by
      funext m
      simp only [hit2]
      rw [i1]
      by_cases hm : m = n
      · simp [hm]
      · rw [if_neg hm, if_neg (fun x => hm x.symm)]; rfl
    have hcnt5 : d5.it.counts = fun m => (d.it.counts m + if n = m then 1 else 0) + k.count m := by
      show d4.it.counts = _
      rw [i4, c3, hcnt2]
    refine ⟨d6, ?_, ?_, ?_, ?_, ?_⟩
    · show Out.foldlM _ d (⟨s, n, .zoneStart⟩ :: (k.events ++ ⟨e, n, .zoneEnd⟩ :: r.events)) = _
      rw [Out.foldlM_cons, hs1, bind_ok, Out.foldlM_append, h3, bind_ok, Out.foldlM_cons, hs4, bind_ok]
      exact h6
    · rw [docIn_cons, ← List.append_assoc]
      rw [hcnt2] at S6
      rw [hcnt5] at S6
      exact S6
    · rw [st6]
    · rw [i6]
      show d4.it.idx + 1 + _ = _
      rw [i4, i3]
      simp only [hit2]
      rw [i1]
      simp [Spec.Forest.events]; omega
    · rw [c6, hcnt5]
      funext m
      simp only [Spec.Forest.count]
      omega

end NPE
